import Verif.Spec.StructuredGrammar

/-!
The parser of the structured slugs compiler, `tools/StructuredSlugsParser/Parser.py` (an LR parser generated by wisent): its tables and its main loop.
The grammar is the one of the comment in lines 86-165 of that file, which agrees with `grammar.wi` (up to the unused rule for `NegationOperator`).
-/

namespace Slugs.Model.Structured

open Slugs.Spec.Structured


/-- `Parser._reduce`, `Parser.py:195-889`: in the state, with one of the symbols ahead, `n` trees are combined. -/
def reduceRows : List (Nat × List Term × NT × Nat) := [
  (2, [.eof], .Formula, 1), (3, [.eof, .rpar, .less, .rbrack], .Biimplication, 1), (7, [.eof, .rpar, .less, .rbrack], .Biimplication, 3),
  (8, [.eof, .rpar, .minus, .less, .rbrack], .Implication, 1), (10, [.eof, .rpar, .minus, .less, .rbrack], .Implication, 3),
  (11, [.eof, .rpar, .minus, .less, .rbrack, .caret], .Xor, 1), (13, [.eof, .rpar, .minus, .less, .rbrack, .caret], .Xor, 3),
  (14, [.eof, .rpar, .minus, .less, .backslash, .rbrack, .caret, .bar], .Disjunction, 1),
  (16, [.eof, .rpar, .minus, .less, .backslash, .rbrack, .caret, .bar], .Disjunction, 3),
  (17, [.eof, .amp, .rpar, .minus, .slash, .less, .backslash, .rbrack, .caret, .bar], .Conjunction, 1),
  (19, [.eof, .amp, .rpar, .minus, .slash, .less, .backslash, .rbrack, .caret, .bar], .Conjunction, 3),
  (20, [.eof, .amp, .rpar, .minus, .slash, .less, .U, .W, .backslash, .rbrack, .caret, .bar], .BinaryTemporalFormula, 1),
  (22, [.eof, .amp, .rpar, .minus, .slash, .less, .U, .W, .backslash, .rbrack, .caret, .bar], .BinaryTemporalFormula, 3),
  (23, [.eof, .amp, .rpar, .minus, .slash, .less, .U, .W, .backslash, .rbrack, .caret, .bar], .UnaryFormula, 1),
  (25, [.eof, .amp, .rpar, .minus, .slash, .less, .U, .W, .backslash, .rbrack, .caret, .bar], .UnaryFormula, 2),
  (26, [.eof, .amp, .rpar, .minus, .slash, .less, .U, .W, .backslash, .rbrack, .caret, .bar], .AtomicFormula, 1),
  (27, [.eof, .amp, .rpar, .minus, .slash, .less, .U, .W, .backslash, .rbrack, .caret, .bar], .AtomicFormula, 1),
  (28, [.eof, .amp, .rpar, .minus, .slash, .less, .U, .W, .backslash, .rbrack, .caret, .bar], .AtomicFormula, 1),
  (29, [.eof, .amp, .rpar, .minus, .slash, .less, .U, .W, .backslash, .rbrack, .caret, .bar], .AtomicFormula, 1),
  (31, [.eof, .amp, .rpar, .minus, .slash, .less, .U, .W, .backslash, .rbrack, .caret, .bar], .Brackets, 3),
  (33, [.eof, .amp, .rpar, .minus, .slash, .less, .U, .W, .backslash, .rbrack, .caret, .bar], .Brackets, 3),
  (34, [.eof, .amp, .rpar, .minus, .slash, .less, .U, .W, .backslash, .rbrack, .caret, .bar], .BooleanAtomicFormula, 1),
  (35, [.eof, .amp, .rpar, .minus, .slash, .less, .U, .W, .backslash, .rbrack, .caret, .bar], .BooleanAtomicFormula, 1),
  (36, [.eof, .amp, .rpar, .minus, .slash, .less, .U, .W, .backslash, .rbrack, .caret, .bar], .Assignment, 1),
  (40, [.eof, .amp, .rpar, .minus, .slash, .less, .U, .W, .backslash, .rbrack, .caret, .bar], .CalculationSubformula, 3),
  (41, [.eof, .bang, .amp, .rpar, .minus, .slash, .less, .equal, .greater, .U, .W, .backslash, .rbrack, .caret, .bar], .NumberExpression, 1),
  (43, [.eof, .bang, .amp, .rpar, .minus, .slash, .less, .equal, .greater, .U, .W, .backslash, .rbrack, .caret, .bar], .NumberExpression, 3),
  (45, [.eof, .bang, .amp, .rpar, .minus, .slash, .less, .equal, .greater, .U, .W, .backslash, .rbrack, .caret, .bar], .NumberExpression, 3),
  (46, [.eof, .bang, .amp, .rpar, .plus, .minus, .slash, .less, .equal, .greater, .subtraction, .U, .W, .backslash, .rbrack, .caret, .bar], .MultiplicativeNumber, 1),
  (48, [.eof, .bang, .amp, .rpar, .plus, .minus, .slash, .less, .equal, .greater, .subtraction, .U, .W, .backslash, .rbrack, .caret, .bar], .MultiplicativeNumber, 3),
  (49, [.eof, .bang, .amp, .rpar, .star, .plus, .minus, .slash, .less, .equal, .greater, .subtraction, .U, .W, .backslash, .rbrack, .caret, .bar], .LeastSignificantBitOverwriteExpression, 1),
  (51, [.eof, .bang, .amp, .rpar, .star, .plus, .minus, .slash, .less, .equal, .greater, .subtraction, .U, .W, .backslash, .rbrack, .caret, .bar], .LeastSignificantBitOverwriteExpression, 3),
  (52, [.eof, .bang, .amp, .rpar, .star, .plus, .minus, .slash, .less, .equal, .greater, .LSB, .subtraction, .U, .W, .backslash, .rbrack, .caret, .bar], .AtomicNumberExpression, 1),
  (53, [.eof, .bang, .amp, .rpar, .star, .plus, .minus, .slash, .less, .equal, .greater, .LSB, .subtraction, .U, .W, .backslash, .rbrack, .caret, .bar], .AtomicNumberExpression, 1),
  (54, [.eof, .bang, .amp, .rpar, .star, .plus, .minus, .slash, .less, .equal, .greater, .LSB, .subtraction, .U, .W, .backslash, .rbrack, .caret, .bar], .AtomicNumberExpression, 1),
  (57, [.eof, .bang, .amp, .rpar, .star, .plus, .minus, .slash, .less, .equal, .greater, .LSB, .subtraction, .U, .W, .backslash, .rbrack, .caret, .bar], .NumberBrackets, 3),
  (58, [.bang, .lpar, .less, .F, .FALSE, .G, .TRUE, .X, .lbrack, .boolID, .next, .numID, .numeral, .tilde], .BinaryTemporalOperator, 1),
  (59, [.bang, .lpar, .less, .F, .FALSE, .G, .TRUE, .X, .lbrack, .boolID, .next, .numID, .numeral, .tilde], .BinaryTemporalOperator, 1),
  (60, [.bang, .lpar, .less, .F, .FALSE, .G, .TRUE, .X, .lbrack, .boolID, .next, .numID, .numeral, .tilde], .UntilOperator, 1),
  (61, [.bang, .lpar, .less, .F, .FALSE, .G, .TRUE, .X, .lbrack, .boolID, .next, .numID, .numeral, .tilde], .WeakUntilOperator, 1),
  (64, [.bang, .lpar, .less, .F, .FALSE, .G, .TRUE, .X, .lbrack, .boolID, .next, .numID, .numeral, .tilde], .ImplicationOperator, 3),
  (65, [.bang, .lpar, .less, .F, .FALSE, .G, .TRUE, .X, .lbrack, .boolID, .next, .numID, .numeral, .tilde], .ImplicationOperator, 2),
  (69, [.bang, .lpar, .less, .F, .FALSE, .G, .TRUE, .X, .lbrack, .boolID, .next, .numID, .numeral, .tilde], .BiimplicationOperator, 4),
  (70, [.bang, .lpar, .less, .F, .FALSE, .G, .TRUE, .X, .lbrack, .boolID, .next, .numID, .numeral, .tilde], .BiimplicationOperator, 3),
  (72, [.bang, .lpar, .less, .F, .FALSE, .G, .TRUE, .X, .lbrack, .boolID, .next, .numID, .numeral, .tilde], .DisjunctionOperator, 2),
  (73, [.bang, .lpar, .less, .F, .FALSE, .G, .TRUE, .X, .lbrack, .boolID, .next, .numID, .numeral, .tilde], .DisjunctionOperator, 1),
  (74, [.bang, .lpar, .less, .F, .FALSE, .G, .TRUE, .X, .lbrack, .boolID, .next, .numID, .numeral, .tilde], .DisjunctionOperator, 2),
  (76, [.bang, .lpar, .less, .F, .FALSE, .G, .TRUE, .X, .lbrack, .boolID, .next, .numID, .numeral, .tilde], .ConjunctionOperator, 2),
  (77, [.bang, .lpar, .less, .F, .FALSE, .G, .TRUE, .X, .lbrack, .boolID, .next, .numID, .numeral, .tilde], .ConjunctionOperator, 1),
  (78, [.bang, .lpar, .less, .F, .FALSE, .G, .TRUE, .X, .lbrack, .boolID, .next, .numID, .numeral, .tilde], .ConjunctionOperator, 2),
  (79, [.lpar, .numID, .numeral], .NumberComparisonOperator, 1), (80, [.lpar, .numID, .numeral], .NumberComparisonOperator, 1),
  (81, [.lpar, .numID, .numeral], .NumberComparisonOperator, 1), (82, [.lpar, .numID, .numeral], .NumberComparisonOperator, 1),
  (83, [.lpar, .numID, .numeral], .NumberComparisonOperator, 1), (84, [.lpar, .numID, .numeral], .NumberComparisonOperator, 1),
  (85, [.lpar, .numID, .numeral], .GreaterOperator, 1), (86, [.lpar, .numID, .numeral], .SmallerOperator, 1),
  (87, [.lpar, .numID, .numeral], .EqualOperator, 1), (89, [.lpar, .numID, .numeral], .UnequalOperator, 2),
  (90, [.lpar, .numID, .numeral], .SmallerEqualOperator, 2), (91, [.lpar, .numID, .numeral], .GreaterEqualOperator, 2),
  (92, [.lpar, .numID, .numeral], .AdditionOperator, 1), (93, [.lpar, .numID, .numeral], .MultiplicationOperator, 1),
  (94, [.lpar, .numID, .numeral], .LeastSignificantBitOverwriteOperator, 1),
  (95, [.bang, .lpar, .less, .F, .FALSE, .G, .TRUE, .X, .lbrack, .boolID, .next, .numID, .numeral, .tilde], .XorOperator, 1),
  (96, [.bang, .lpar, .less, .F, .FALSE, .G, .TRUE, .X, .lbrack, .boolID, .next, .numID, .numeral, .tilde], .UnaryTemporalOperator, 1),
  (97, [.bang, .lpar, .less, .F, .FALSE, .G, .TRUE, .X, .lbrack, .boolID, .next, .numID, .numeral, .tilde], .UnaryTemporalOperator, 1),
  (98, [.bang, .lpar, .less, .F, .FALSE, .G, .TRUE, .X, .lbrack, .boolID, .next, .numID, .numeral, .tilde], .UnaryTemporalOperator, 1),
  (99, [.bang, .lpar, .less, .F, .FALSE, .G, .TRUE, .X, .lbrack, .boolID, .next, .numID, .numeral, .tilde], .UnaryTemporalOperator, 1),
  (101, [.bang, .lpar, .less, .F, .FALSE, .G, .TRUE, .X, .lbrack, .boolID, .next, .numID, .numeral, .tilde], .FinallyOperator, 2),
  (102, [.bang, .lpar, .less, .F, .FALSE, .G, .TRUE, .X, .lbrack, .boolID, .next, .numID, .numeral, .tilde], .FinallyOperator, 1),
  (103, [.bang, .lpar, .less, .F, .FALSE, .G, .TRUE, .X, .lbrack, .boolID, .next, .numID, .numeral, .tilde], .NextOperator, 2),
  (104, [.bang, .lpar, .less, .F, .FALSE, .G, .TRUE, .X, .lbrack, .boolID, .next, .numID, .numeral, .tilde], .NextOperator, 1),
  (105, [.bang, .lpar, .less, .F, .FALSE, .G, .TRUE, .X, .lbrack, .boolID, .next, .numID, .numeral, .tilde], .NextOperator, 1),
  (106, [.bang, .lpar, .less, .F, .FALSE, .G, .TRUE, .X, .lbrack, .boolID, .next, .numID, .numeral, .tilde], .GloballyOperator, 2),
  (107, [.bang, .lpar, .less, .F, .FALSE, .G, .TRUE, .X, .lbrack, .boolID, .next, .numID, .numeral, .tilde], .GloballyOperator, 1),
  (108, [.bang, .lpar, .less, .F, .FALSE, .G, .TRUE, .X, .lbrack, .boolID, .next, .numID, .numeral, .tilde], .NotOperator, 1),
  (109, [.bang, .lpar, .less, .F, .FALSE, .G, .TRUE, .X, .lbrack, .boolID, .next, .numID, .numeral, .tilde], .NotOperator, 1)]

/-- `Parser._goto`, `Parser.py:890-1031`. -/
def gotoRows : List (Nat × List (NT × Nat)) := [

  (0, [(.Assignment, 34), (.AtomicFormula, 23), (.AtomicNumberExpression, 49), (.Biimplication, 2), (.BinaryTemporalFormula, 17), (.BooleanAtomicFormula, 29), (.Brackets, 28), (.CalculationSubformula, 35), (.Conjunction, 14), (.Disjunction, 11), (.FinallyOperator, 96), (.Formula, 1), (.GloballyOperator, 98), (.Implication, 3), (.LeastSignificantBitOverwriteExpression, 46), (.MultiplicativeNumber, 41), (.NextOperator, 97), (.NotOperator, 99), (.NumberBrackets, 54), (.NumberExpression, 37), (.UnaryFormula, 20), (.UnaryTemporalOperator, 24), (.Xor, 8)]),
  (2, [(.BiimplicationOperator, 6)]), (3, [(.ImplicationOperator, 9)]), (4, [(.BiimplicationOperator, 6)]), (5, [(.BiimplicationOperator, 6)]),
  (6, [(.Assignment, 34), (.AtomicFormula, 23), (.AtomicNumberExpression, 49), (.BinaryTemporalFormula, 17), (.BooleanAtomicFormula, 29), (.Brackets, 28), (.CalculationSubformula, 35), (.Conjunction, 14), (.Disjunction, 11), (.FinallyOperator, 96), (.GloballyOperator, 98), (.Implication, 7), (.LeastSignificantBitOverwriteExpression, 46), (.MultiplicativeNumber, 41), (.NextOperator, 97), (.NotOperator, 99), (.NumberBrackets, 54), (.NumberExpression, 37), (.UnaryFormula, 20), (.UnaryTemporalOperator, 24), (.Xor, 8)]),
  (7, [(.ImplicationOperator, 9)]), (8, [(.XorOperator, 12)]),
  (9, [(.Assignment, 34), (.AtomicFormula, 23), (.AtomicNumberExpression, 49), (.BinaryTemporalFormula, 17), (.BooleanAtomicFormula, 29), (.Brackets, 28), (.CalculationSubformula, 35), (.Conjunction, 14), (.Disjunction, 11), (.FinallyOperator, 96), (.GloballyOperator, 98), (.LeastSignificantBitOverwriteExpression, 46), (.MultiplicativeNumber, 41), (.NextOperator, 97), (.NotOperator, 99), (.NumberBrackets, 54), (.NumberExpression, 37), (.UnaryFormula, 20), (.UnaryTemporalOperator, 24), (.Xor, 10)]),
  (10, [(.XorOperator, 12)]), (11, [(.DisjunctionOperator, 15)]),
  (12, [(.Assignment, 34), (.AtomicFormula, 23), (.AtomicNumberExpression, 49), (.BinaryTemporalFormula, 17), (.BooleanAtomicFormula, 29), (.Brackets, 28), (.CalculationSubformula, 35), (.Conjunction, 14), (.Disjunction, 13), (.FinallyOperator, 96), (.GloballyOperator, 98), (.LeastSignificantBitOverwriteExpression, 46), (.MultiplicativeNumber, 41), (.NextOperator, 97), (.NotOperator, 99), (.NumberBrackets, 54), (.NumberExpression, 37), (.UnaryFormula, 20), (.UnaryTemporalOperator, 24)]),
  (13, [(.DisjunctionOperator, 15)]), (14, [(.ConjunctionOperator, 18)]),
  (15, [(.Assignment, 34), (.AtomicFormula, 23), (.AtomicNumberExpression, 49), (.BinaryTemporalFormula, 17), (.BooleanAtomicFormula, 29), (.Brackets, 28), (.CalculationSubformula, 35), (.Conjunction, 16), (.FinallyOperator, 96), (.GloballyOperator, 98), (.LeastSignificantBitOverwriteExpression, 46), (.MultiplicativeNumber, 41), (.NextOperator, 97), (.NotOperator, 99), (.NumberBrackets, 54), (.NumberExpression, 37), (.UnaryFormula, 20), (.UnaryTemporalOperator, 24)]),
  (16, [(.ConjunctionOperator, 18)]), (17, [(.BinaryTemporalOperator, 21), (.UntilOperator, 58), (.WeakUntilOperator, 59)]),
  (18, [(.Assignment, 34), (.AtomicFormula, 23), (.AtomicNumberExpression, 49), (.BinaryTemporalFormula, 19), (.BooleanAtomicFormula, 29), (.Brackets, 28), (.CalculationSubformula, 35), (.FinallyOperator, 96), (.GloballyOperator, 98), (.LeastSignificantBitOverwriteExpression, 46), (.MultiplicativeNumber, 41), (.NextOperator, 97), (.NotOperator, 99), (.NumberBrackets, 54), (.NumberExpression, 37), (.UnaryFormula, 20), (.UnaryTemporalOperator, 24)]),
  (19, [(.BinaryTemporalOperator, 21), (.UntilOperator, 58), (.WeakUntilOperator, 59)]),
  (21, [(.Assignment, 34), (.AtomicFormula, 23), (.AtomicNumberExpression, 49), (.BooleanAtomicFormula, 29), (.Brackets, 28), (.CalculationSubformula, 35), (.FinallyOperator, 96), (.GloballyOperator, 98), (.LeastSignificantBitOverwriteExpression, 46), (.MultiplicativeNumber, 41), (.NextOperator, 97), (.NotOperator, 99), (.NumberBrackets, 54), (.NumberExpression, 37), (.UnaryFormula, 22), (.UnaryTemporalOperator, 24)]),
  (24, [(.Assignment, 34), (.AtomicFormula, 23), (.AtomicNumberExpression, 49), (.BooleanAtomicFormula, 29), (.Brackets, 28), (.CalculationSubformula, 35), (.FinallyOperator, 96), (.GloballyOperator, 98), (.LeastSignificantBitOverwriteExpression, 46), (.MultiplicativeNumber, 41), (.NextOperator, 97), (.NotOperator, 99), (.NumberBrackets, 54), (.NumberExpression, 37), (.UnaryFormula, 25), (.UnaryTemporalOperator, 24)]),
  (30, [(.Assignment, 34), (.AtomicFormula, 23), (.AtomicNumberExpression, 49), (.Biimplication, 5), (.BinaryTemporalFormula, 17), (.BooleanAtomicFormula, 29), (.Brackets, 28), (.CalculationSubformula, 35), (.Conjunction, 14), (.Disjunction, 11), (.FinallyOperator, 96), (.GloballyOperator, 98), (.Implication, 3), (.LeastSignificantBitOverwriteExpression, 46), (.MultiplicativeNumber, 41), (.NextOperator, 97), (.NotOperator, 99), (.NumberBrackets, 54), (.NumberExpression, 38), (.UnaryFormula, 20), (.UnaryTemporalOperator, 24), (.Xor, 8)]),
  (32, [(.Assignment, 34), (.AtomicFormula, 23), (.AtomicNumberExpression, 49), (.Biimplication, 4), (.BinaryTemporalFormula, 17), (.BooleanAtomicFormula, 29), (.Brackets, 28), (.CalculationSubformula, 35), (.Conjunction, 14), (.Disjunction, 11), (.FinallyOperator, 96), (.GloballyOperator, 98), (.Implication, 3), (.LeastSignificantBitOverwriteExpression, 46), (.MultiplicativeNumber, 41), (.NextOperator, 97), (.NotOperator, 99), (.NumberBrackets, 54), (.NumberExpression, 37), (.UnaryFormula, 20), (.UnaryTemporalOperator, 24), (.Xor, 8)]),
  (37, [(.EqualOperator, 80), (.GreaterEqualOperator, 82), (.GreaterOperator, 79), (.NumberComparisonOperator, 39), (.SmallerEqualOperator, 83), (.SmallerOperator, 84), (.UnequalOperator, 81)]),
  (38, [(.EqualOperator, 80), (.GreaterEqualOperator, 82), (.GreaterOperator, 79), (.NumberComparisonOperator, 39), (.SmallerEqualOperator, 83), (.SmallerOperator, 84), (.UnequalOperator, 81)]),
  (39, [(.AtomicNumberExpression, 49), (.LeastSignificantBitOverwriteExpression, 46), (.MultiplicativeNumber, 41), (.NumberBrackets, 54), (.NumberExpression, 40)]),
  (41, [(.AdditionOperator, 42)]),
  (42, [(.AtomicNumberExpression, 49), (.LeastSignificantBitOverwriteExpression, 46), (.MultiplicativeNumber, 41), (.NumberBrackets, 54), (.NumberExpression, 43)]),
  (44, [(.AtomicNumberExpression, 49), (.LeastSignificantBitOverwriteExpression, 46), (.MultiplicativeNumber, 41), (.NumberBrackets, 54), (.NumberExpression, 45)]),
  (46, [(.MultiplicationOperator, 47)]), (47, [(.AtomicNumberExpression, 49), (.LeastSignificantBitOverwriteExpression, 48), (.NumberBrackets, 54)]),
  (49, [(.LeastSignificantBitOverwriteOperator, 50)]), (50, [(.AtomicNumberExpression, 51), (.NumberBrackets, 54)]),
  (55, [(.AtomicNumberExpression, 49), (.LeastSignificantBitOverwriteExpression, 46), (.MultiplicativeNumber, 41), (.NumberBrackets, 54), (.NumberExpression, 56)])]

/-- `Parser._shift`, `Parser.py:1032-1089`. -/
def shiftRows : List (Nat × List (Term × Nat)) := [

  (0, [(.bang, 108), (.lpar, 30), (.less, 100), (.F, 102), (.FALSE, 26), (.G, 107), (.TRUE, 27), (.X, 105), (.lbrack, 32), (.boolID, 36), (.next, 104), (.numID, 52), (.numeral, 53), (.tilde, 109)]),
  (1, [(.eof, 110)]), (2, [(.less, 66)]), (3, [(.minus, 62)]), (4, [(.less, 66), (.rbrack, 33)]), (5, [(.rpar, 31), (.less, 66)]),
  (6, [(.bang, 108), (.lpar, 30), (.less, 100), (.F, 102), (.FALSE, 26), (.G, 107), (.TRUE, 27), (.X, 105), (.lbrack, 32), (.boolID, 36), (.next, 104), (.numID, 52), (.numeral, 53), (.tilde, 109)]),
  (7, [(.minus, 62)]), (8, [(.caret, 95)]),
  (9, [(.bang, 108), (.lpar, 30), (.less, 100), (.F, 102), (.FALSE, 26), (.G, 107), (.TRUE, 27), (.X, 105), (.lbrack, 32), (.boolID, 36), (.next, 104), (.numID, 52), (.numeral, 53), (.tilde, 109)]),
  (10, [(.caret, 95)]), (11, [(.backslash, 71), (.bar, 73)]),
  (12, [(.bang, 108), (.lpar, 30), (.less, 100), (.F, 102), (.FALSE, 26), (.G, 107), (.TRUE, 27), (.X, 105), (.lbrack, 32), (.boolID, 36), (.next, 104), (.numID, 52), (.numeral, 53), (.tilde, 109)]),
  (13, [(.backslash, 71), (.bar, 73)]), (14, [(.amp, 77), (.slash, 75)]),
  (15, [(.bang, 108), (.lpar, 30), (.less, 100), (.F, 102), (.FALSE, 26), (.G, 107), (.TRUE, 27), (.X, 105), (.lbrack, 32), (.boolID, 36), (.next, 104), (.numID, 52), (.numeral, 53), (.tilde, 109)]),
  (16, [(.amp, 77), (.slash, 75)]), (17, [(.U, 60), (.W, 61)]),
  (18, [(.bang, 108), (.lpar, 30), (.less, 100), (.F, 102), (.FALSE, 26), (.G, 107), (.TRUE, 27), (.X, 105), (.lbrack, 32), (.boolID, 36), (.next, 104), (.numID, 52), (.numeral, 53), (.tilde, 109)]),
  (19, [(.U, 60), (.W, 61)]),
  (21, [(.bang, 108), (.lpar, 30), (.less, 100), (.F, 102), (.FALSE, 26), (.G, 107), (.TRUE, 27), (.X, 105), (.lbrack, 32), (.boolID, 36), (.next, 104), (.numID, 52), (.numeral, 53), (.tilde, 109)]),
  (24, [(.bang, 108), (.lpar, 30), (.less, 100), (.F, 102), (.FALSE, 26), (.G, 107), (.TRUE, 27), (.X, 105), (.lbrack, 32), (.boolID, 36), (.next, 104), (.numID, 52), (.numeral, 53), (.tilde, 109)]),
  (30, [(.bang, 108), (.lpar, 30), (.rpar, 103), (.less, 100), (.F, 102), (.FALSE, 26), (.G, 107), (.TRUE, 27), (.X, 105), (.lbrack, 32), (.boolID, 36), (.next, 104), (.numID, 52), (.numeral, 53), (.tilde, 109)]),
  (32, [(.bang, 108), (.lpar, 30), (.less, 100), (.F, 102), (.FALSE, 26), (.G, 107), (.TRUE, 27), (.X, 105), (.lbrack, 32), (.rbrack, 106), (.boolID, 36), (.next, 104), (.numID, 52), (.numeral, 53), (.tilde, 109)]),
  (37, [(.bang, 88), (.less, 86), (.equal, 87), (.greater, 85)]), (38, [(.bang, 88), (.rpar, 57), (.less, 86), (.equal, 87), (.greater, 85)]),
  (39, [(.lpar, 55), (.numID, 52), (.numeral, 53)]), (41, [(.plus, 92), (.subtraction, 44)]), (42, [(.lpar, 55), (.numID, 52), (.numeral, 53)]),
  (44, [(.lpar, 55), (.numID, 52), (.numeral, 53)]), (46, [(.star, 93)]), (47, [(.lpar, 55), (.numID, 52), (.numeral, 53)]), (49, [(.LSB, 94)]),
  (50, [(.lpar, 55), (.numID, 52), (.numeral, 53)]), (55, [(.lpar, 55), (.numID, 52), (.numeral, 53)]), (56, [(.rpar, 57)]),
  (62, [(.minus, 63), (.greater, 65)]), (63, [(.greater, 64)]), (66, [(.minus, 67)]), (67, [(.minus, 68), (.greater, 70)]), (68, [(.greater, 69)]),
  (71, [(.slash, 72)]), (73, [(.bar, 74)]), (75, [(.backslash, 76)]), (77, [(.amp, 78)]), (85, [(.equal, 91)]), (86, [(.equal, 90)]),
  (88, [(.equal, 89)]), (100, [(.greater, 101)])]

def lookup {A B : Type} [DecidableEq A] (a : A) : List (A × B) → Option B
  | [] => none
  | (x, y) :: l => if x = a then some y else lookup a l

/-- `self._shift.get((state,token))`. -/
def shift (state : Nat) (a : Term) : Option Nat := (lookup state shiftRows).bind (lookup a)

/-- `self._goto.get((state,X))`. -/
def goto (state : Nat) (X : NT) : Option Nat := (lookup state gotoRows).bind (lookup X)

/-- `self._reduce.get((state,token))`. -/
def reduce (state : Nat) (a : Term) : Option (NT × Nat) :=
  (reduceRows.find? fun r => r.1 = state && r.2.1.contains a).map fun r => r.2.2

/-- `Parser._halting_state`, `Parser.py:194`. -/
def haltingState : Nat := 110

/-- The stack, with its top at the head: states and the trees read in these states. -/
abbrev Stack := List (Nat × Tree)

/-- The outcomes of the parser: a tree, a parse error, or (never, see `parse_total`) no end of the loop. -/
inductive Parsed where
  | tree (t : Tree)
  | error
  | running

/-- The loop of `Parser._parse`, `Parser.py:1134-1160`, from within `Parser.parse`, `Parser.py:1182-1254`.  Once there is an error, an exception is raised in any case; the
attempts to repair the line before that only serve to report more errors and are not modelled. -/
def lrLoop : Nat → Nat → Stack → List Tok → Parsed
  | 0, _, _, _ => .running
  | fuel + 1, state, stack, input =>
    if state = haltingState then
      match stack.getLast? with
      | some (_, t) => .tree t
      | none => .error
    else
      match input with
      | [] => .error
      | a :: rest =>
        match shift state a.kind with
        | some k => lrLoop fuel k ((state, .leaf a) :: stack) rest
        | none =>
          match reduce state a.kind with
          | none => .error
          | some (X, n) =>
            let state' := if n = 0 then state else ((stack.drop (n - 1)).head?.map Prod.fst).getD state
            match goto state' X with
            | none => .error
            | some k => lrLoop fuel k ((state', .node X ((stack.take n).reverse.map Prod.snd)) :: stack.drop n) input

/-- `Parser.parse`, `Parser.py:1182-1254`. -/
def parse (toks : List Tok) : Parsed := lrLoop (64 * toks.length + 200) 0 [] (toks ++ [⟨.eof, []⟩])

end Slugs.Model.Structured
