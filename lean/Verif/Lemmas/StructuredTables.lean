import Verif.Model.StructuredParser

/-!
Data about the tables of the parser of the structured slugs compiler, used in the proofs about it: they are checked there.
-/

namespace Slugs.Model.Structured

open Slugs.Spec.Structured

/-- The terminals (as a set of numbers) with which texts for a category start. -/
def firstNT : NT → Nat
  | .Formula => 790182149
  | .Biimplication => 790182149
  | .Implication => 790182149
  | .Xor => 790182149
  | .Disjunction => 790182149
  | .Conjunction => 790182149
  | .BinaryTemporalFormula => 790182149
  | .UnaryFormula => 790182149
  | .AtomicFormula => 219222020
  | .Brackets => 1048580
  | .BooleanAtomicFormula => 218103812
  | .Assignment => 16777216
  | .CalculationSubformula => 201326596
  | .NumberExpression => 201326596
  | .MultiplicativeNumber => 201326596
  | .LeastSignificantBitOverwriteExpression => 201326596
  | .AtomicNumberExpression => 201326596
  | .NumberBrackets => 4
  | .BinaryTemporalOperator => 393216
  | .UntilOperator => 131072
  | .WeakUntilOperator => 262144
  | .ImplicationOperator => 64
  | .BiimplicationOperator => 256
  | .DisjunctionOperator => 270532608
  | .ConjunctionOperator => 130
  | .NumberComparisonOperator => 1793
  | .GreaterOperator => 1024
  | .SmallerOperator => 256
  | .EqualOperator => 512
  | .UnequalOperator => 1
  | .SmallerEqualOperator => 256
  | .GreaterEqualOperator => 1024
  | .AdditionOperator => 32
  | .MultiplicationOperator => 16
  | .LeastSignificantBitOverwriteOperator => 16384
  | .XorOperator => 8388608
  | .UnaryTemporalOperator => 572008709
  | .FinallyOperator => 2304
  | .NextOperator => 34078724
  | .GloballyOperator => 1056768
  | .NotOperator => 536870913

/-- Unit rules lead to smaller ranks. -/
def rankNT : NT → Nat
  | .Formula => 0
  | .Biimplication => 1
  | .Implication => 2
  | .Xor => 3
  | .Disjunction => 4
  | .Conjunction => 5
  | .BinaryTemporalFormula => 6
  | .UnaryFormula => 7
  | .AtomicFormula => 8
  | .Brackets => 9
  | .BooleanAtomicFormula => 9
  | .Assignment => 10
  | .CalculationSubformula => 10
  | .NumberExpression => 0
  | .MultiplicativeNumber => 1
  | .LeastSignificantBitOverwriteExpression => 2
  | .AtomicNumberExpression => 3
  | .NumberBrackets => 4
  | .BinaryTemporalOperator => 0
  | .UntilOperator => 1
  | .WeakUntilOperator => 1
  | .ImplicationOperator => 0
  | .BiimplicationOperator => 0
  | .DisjunctionOperator => 0
  | .ConjunctionOperator => 0
  | .NumberComparisonOperator => 0
  | .GreaterOperator => 1
  | .SmallerOperator => 1
  | .EqualOperator => 1
  | .UnequalOperator => 1
  | .SmallerEqualOperator => 1
  | .GreaterEqualOperator => 1
  | .AdditionOperator => 0
  | .MultiplicationOperator => 0
  | .LeastSignificantBitOverwriteOperator => 0
  | .XorOperator => 0
  | .UnaryTemporalOperator => 0
  | .FinallyOperator => 1
  | .NextOperator => 1
  | .GloballyOperator => 1
  | .NotOperator => 1

/-- The LR(1) items of the states: rule, position, and the terminals (as a set of numbers) that can follow. -/
def itemRows : List (Nat × List (Nat × Nat × Nat)) := [

  (0, [(0, 0, 1073741824), (1, 0, 1073742080), (2, 0, 1073742080), (3, 0, 1073742144), (4, 0, 1073742144), (5, 0, 1082130752), (6, 0, 1082130752), (7, 0, 1352663360), (8, 0, 1352663360), (9, 0, 1352663490), (10, 0, 1352663490), (11, 0, 1353056706), (12, 0, 1353056706), (13, 0, 1353056706), (14, 0, 1353056706), (15, 0, 1353056706), (16, 0, 1353056706), (17, 0, 1353056706), (18, 0, 1353056706), (66, 0, 790182149), (67, 0, 790182149), (68, 0, 790182149), (69, 0, 790182149), (19, 0, 1353056706), (20, 0, 1353056706), (21, 0, 1353056706), (22, 0, 1353056706), (70, 0, 790182149), (71, 0, 790182149), (72, 0, 790182149), (73, 0, 790182149), (74, 0, 790182149), (75, 0, 790182149), (76, 0, 790182149), (77, 0, 790182149), (78, 0, 790182149), (23, 0, 1353056706), (24, 0, 1353056706), (25, 0, 1793), (26, 0, 1793), (27, 0, 1793), (28, 0, 34593), (29, 0, 34593), (30, 0, 34609), (31, 0, 34609), (32, 0, 50993), (33, 0, 50993), (34, 0, 50993), (35, 0, 50993)]),
  (2, [(0, 1, 1073741824), (2, 1, 1073742080), (42, 0, 790182149), (43, 0, 790182149)]),
  (3, [(1, 1, 1077936392), (4, 1, 1077936456), (40, 0, 790182149), (41, 0, 790182149)]),
  (4, [(20, 2, 1357251018), (2, 1, 4194560), (42, 0, 790182149), (43, 0, 790182149)]),
  (5, [(19, 2, 1357251018), (2, 1, 264), (42, 0, 790182149), (43, 0, 790182149)]),
  (6, [(2, 2, 1077936392), (3, 0, 1077936456), (4, 0, 1077936456), (5, 0, 1086325064), (6, 0, 1086325064), (7, 0, 1356857672), (8, 0, 1356857672), (9, 0, 1356857802), (10, 0, 1356857802), (11, 0, 1357251018), (12, 0, 1357251018), (13, 0, 1357251018), (14, 0, 1357251018), (15, 0, 1357251018), (16, 0, 1357251018), (17, 0, 1357251018), (18, 0, 1357251018), (66, 0, 790182149), (67, 0, 790182149), (68, 0, 790182149), (69, 0, 790182149), (19, 0, 1357251018), (20, 0, 1357251018), (21, 0, 1357251018), (22, 0, 1357251018), (70, 0, 790182149), (71, 0, 790182149), (72, 0, 790182149), (73, 0, 790182149), (74, 0, 790182149), (75, 0, 790182149), (76, 0, 790182149), (77, 0, 790182149), (78, 0, 790182149), (23, 0, 1357251018), (24, 0, 1357251018), (25, 0, 1793), (26, 0, 1793), (27, 0, 1793), (28, 0, 34593), (29, 0, 34593), (30, 0, 34609), (31, 0, 34609), (32, 0, 50993), (33, 0, 50993), (34, 0, 50993), (35, 0, 50993)]),
  (7, [(2, 3, 1077936392), (4, 1, 1077936456), (40, 0, 790182149), (41, 0, 790182149)]),
  (8, [(3, 1, 1077936456), (6, 1, 1086325064), (65, 0, 790182149)]),
  (9, [(4, 2, 1077936456), (5, 0, 1086325064), (6, 0, 1086325064), (7, 0, 1356857672), (8, 0, 1356857672), (9, 0, 1356857802), (10, 0, 1356857802), (11, 0, 1357251018), (12, 0, 1357251018), (13, 0, 1357251018), (14, 0, 1357251018), (15, 0, 1357251018), (16, 0, 1357251018), (17, 0, 1357251018), (18, 0, 1357251018), (66, 0, 790182149), (67, 0, 790182149), (68, 0, 790182149), (69, 0, 790182149), (19, 0, 1357251018), (20, 0, 1357251018), (21, 0, 1357251018), (22, 0, 1357251018), (70, 0, 790182149), (71, 0, 790182149), (72, 0, 790182149), (73, 0, 790182149), (74, 0, 790182149), (75, 0, 790182149), (76, 0, 790182149), (77, 0, 790182149), (78, 0, 790182149), (23, 0, 1357251018), (24, 0, 1357251018), (25, 0, 1793), (26, 0, 1793), (27, 0, 1793), (28, 0, 34593), (29, 0, 34593), (30, 0, 34609), (31, 0, 34609), (32, 0, 50993), (33, 0, 50993), (34, 0, 50993), (35, 0, 50993)]),
  (10, [(4, 3, 1077936456), (6, 1, 1086325064), (65, 0, 790182149)]),
  (11, [(5, 1, 1086325064), (8, 1, 1356857672), (44, 0, 790182149), (45, 0, 790182149), (46, 0, 790182149)]),
  (12, [(6, 2, 1086325064), (7, 0, 1356857672), (8, 0, 1356857672), (9, 0, 1356857802), (10, 0, 1356857802), (11, 0, 1357251018), (12, 0, 1357251018), (13, 0, 1357251018), (14, 0, 1357251018), (15, 0, 1357251018), (16, 0, 1357251018), (17, 0, 1357251018), (18, 0, 1357251018), (66, 0, 790182149), (67, 0, 790182149), (68, 0, 790182149), (69, 0, 790182149), (19, 0, 1357251018), (20, 0, 1357251018), (21, 0, 1357251018), (22, 0, 1357251018), (70, 0, 790182149), (71, 0, 790182149), (72, 0, 790182149), (73, 0, 790182149), (74, 0, 790182149), (75, 0, 790182149), (76, 0, 790182149), (77, 0, 790182149), (78, 0, 790182149), (23, 0, 1357251018), (24, 0, 1357251018), (25, 0, 1793), (26, 0, 1793), (27, 0, 1793), (28, 0, 34593), (29, 0, 34593), (30, 0, 34609), (31, 0, 34609), (32, 0, 50993), (33, 0, 50993), (34, 0, 50993), (35, 0, 50993)]),
  (13, [(6, 3, 1086325064), (8, 1, 1356857672), (44, 0, 790182149), (45, 0, 790182149), (46, 0, 790182149)]),
  (14, [(7, 1, 1356857672), (10, 1, 1356857802), (47, 0, 790182149), (48, 0, 790182149), (49, 0, 790182149)]),
  (15, [(8, 2, 1356857672), (9, 0, 1356857802), (10, 0, 1356857802), (11, 0, 1357251018), (12, 0, 1357251018), (13, 0, 1357251018), (14, 0, 1357251018), (15, 0, 1357251018), (16, 0, 1357251018), (17, 0, 1357251018), (18, 0, 1357251018), (66, 0, 790182149), (67, 0, 790182149), (68, 0, 790182149), (69, 0, 790182149), (19, 0, 1357251018), (20, 0, 1357251018), (21, 0, 1357251018), (22, 0, 1357251018), (70, 0, 790182149), (71, 0, 790182149), (72, 0, 790182149), (73, 0, 790182149), (74, 0, 790182149), (75, 0, 790182149), (76, 0, 790182149), (77, 0, 790182149), (78, 0, 790182149), (23, 0, 1357251018), (24, 0, 1357251018), (25, 0, 1793), (26, 0, 1793), (27, 0, 1793), (28, 0, 34593), (29, 0, 34593), (30, 0, 34609), (31, 0, 34609), (32, 0, 50993), (33, 0, 50993), (34, 0, 50993), (35, 0, 50993)]),
  (16, [(8, 3, 1356857672), (10, 1, 1356857802), (47, 0, 790182149), (48, 0, 790182149), (49, 0, 790182149)]),
  (17, [(9, 1, 1356857802), (12, 1, 1357251018), (36, 0, 790182149), (37, 0, 790182149), (38, 0, 790182149), (39, 0, 790182149)]),
  (18, [(10, 2, 1356857802), (11, 0, 1357251018), (12, 0, 1357251018), (13, 0, 1357251018), (14, 0, 1357251018), (15, 0, 1357251018), (16, 0, 1357251018), (17, 0, 1357251018), (18, 0, 1357251018), (66, 0, 790182149), (67, 0, 790182149), (68, 0, 790182149), (69, 0, 790182149), (19, 0, 1357251018), (20, 0, 1357251018), (21, 0, 1357251018), (22, 0, 1357251018), (70, 0, 790182149), (71, 0, 790182149), (72, 0, 790182149), (73, 0, 790182149), (74, 0, 790182149), (75, 0, 790182149), (76, 0, 790182149), (77, 0, 790182149), (78, 0, 790182149), (23, 0, 1357251018), (24, 0, 1357251018), (25, 0, 1793), (26, 0, 1793), (27, 0, 1793), (28, 0, 34593), (29, 0, 34593), (30, 0, 34609), (31, 0, 34609), (32, 0, 50993), (33, 0, 50993), (34, 0, 50993), (35, 0, 50993)]),
  (19, [(10, 3, 1356857802), (12, 1, 1357251018), (36, 0, 790182149), (37, 0, 790182149), (38, 0, 790182149), (39, 0, 790182149)]),
  (20, [(11, 1, 1357251018)]),
  (21, [(12, 2, 1357251018), (13, 0, 1357251018), (14, 0, 1357251018), (15, 0, 1357251018), (16, 0, 1357251018), (17, 0, 1357251018), (18, 0, 1357251018), (66, 0, 790182149), (67, 0, 790182149), (68, 0, 790182149), (69, 0, 790182149), (19, 0, 1357251018), (20, 0, 1357251018), (21, 0, 1357251018), (22, 0, 1357251018), (70, 0, 790182149), (71, 0, 790182149), (72, 0, 790182149), (73, 0, 790182149), (74, 0, 790182149), (75, 0, 790182149), (76, 0, 790182149), (77, 0, 790182149), (78, 0, 790182149), (23, 0, 1357251018), (24, 0, 1357251018), (25, 0, 1793), (26, 0, 1793), (27, 0, 1793), (28, 0, 34593), (29, 0, 34593), (30, 0, 34609), (31, 0, 34609), (32, 0, 50993), (33, 0, 50993), (34, 0, 50993), (35, 0, 50993)]),
  (22, [(12, 3, 1357251018)]), (23, [(13, 1, 1357251018)]),
  (24, [(14, 1, 1357251018), (13, 0, 1357251018), (14, 0, 1357251018), (15, 0, 1357251018), (16, 0, 1357251018), (17, 0, 1357251018), (18, 0, 1357251018), (66, 0, 790182149), (67, 0, 790182149), (68, 0, 790182149), (69, 0, 790182149), (19, 0, 1357251018), (20, 0, 1357251018), (21, 0, 1357251018), (22, 0, 1357251018), (70, 0, 790182149), (71, 0, 790182149), (72, 0, 790182149), (73, 0, 790182149), (74, 0, 790182149), (75, 0, 790182149), (76, 0, 790182149), (77, 0, 790182149), (78, 0, 790182149), (23, 0, 1357251018), (24, 0, 1357251018), (25, 0, 1793), (26, 0, 1793), (27, 0, 1793), (28, 0, 34593), (29, 0, 34593), (30, 0, 34609), (31, 0, 34609), (32, 0, 50993), (33, 0, 50993), (34, 0, 50993), (35, 0, 50993)]),
  (25, [(14, 2, 1357251018)]), (26, [(15, 1, 1357251018)]), (27, [(16, 1, 1357251018)]), (28, [(17, 1, 1357251018)]), (29, [(18, 1, 1357251018)]),
  (30, [(19, 1, 1357251018), (72, 1, 790182149), (1, 0, 264), (2, 0, 264), (3, 0, 328), (4, 0, 328), (5, 0, 8388936), (6, 0, 8388936), (7, 0, 278921544), (8, 0, 278921544), (9, 0, 278921674), (10, 0, 278921674), (35, 1, 51001), (11, 0, 279314890), (12, 0, 279314890), (25, 0, 1801), (26, 0, 1801), (27, 0, 1801), (13, 0, 279314890), (14, 0, 279314890), (28, 0, 34601), (29, 0, 34601), (15, 0, 279314890), (16, 0, 279314890), (17, 0, 279314890), (18, 0, 279314890), (66, 0, 790182149), (67, 0, 790182149), (68, 0, 790182149), (69, 0, 790182149), (30, 0, 34617), (31, 0, 34617), (19, 0, 279314890), (20, 0, 279314890), (21, 0, 279314890), (22, 0, 279314890), (70, 0, 790182149), (71, 0, 790182149), (72, 0, 790182149), (73, 0, 790182149), (74, 0, 790182149), (75, 0, 790182149), (76, 0, 790182149), (77, 0, 790182149), (78, 0, 790182149), (32, 0, 51001), (33, 0, 51001), (34, 0, 51001), (23, 0, 279314890), (24, 0, 279314890), (35, 0, 51001)]),
  (31, [(19, 3, 1357251018)]),
  (32, [(20, 1, 1357251018), (75, 1, 790182149), (1, 0, 4194560), (2, 0, 4194560), (3, 0, 4194624), (4, 0, 4194624), (5, 0, 12583232), (6, 0, 12583232), (7, 0, 283115840), (8, 0, 283115840), (9, 0, 283115970), (10, 0, 283115970), (11, 0, 283509186), (12, 0, 283509186), (13, 0, 283509186), (14, 0, 283509186), (15, 0, 283509186), (16, 0, 283509186), (17, 0, 283509186), (18, 0, 283509186), (66, 0, 790182149), (67, 0, 790182149), (68, 0, 790182149), (69, 0, 790182149), (19, 0, 283509186), (20, 0, 283509186), (21, 0, 283509186), (22, 0, 283509186), (70, 0, 790182149), (71, 0, 790182149), (72, 0, 790182149), (73, 0, 790182149), (74, 0, 790182149), (75, 0, 790182149), (76, 0, 790182149), (77, 0, 790182149), (78, 0, 790182149), (23, 0, 283509186), (24, 0, 283509186), (25, 0, 1793), (26, 0, 1793), (27, 0, 1793), (28, 0, 34593), (29, 0, 34593), (30, 0, 34609), (31, 0, 34609), (32, 0, 50993), (33, 0, 50993), (34, 0, 50993), (35, 0, 50993)]),
  (33, [(20, 3, 1357251018)]), (34, [(21, 1, 1357251018)]), (35, [(22, 1, 1357251018)]), (36, [(23, 1, 1357251018)]),
  (37, [(24, 1, 1357251018), (50, 0, 201326596), (51, 0, 201326596), (52, 0, 201326596), (53, 0, 201326596), (54, 0, 201326596), (55, 0, 201326596), (56, 0, 201326596), (58, 0, 201326596), (59, 0, 201326596), (61, 0, 201326596), (60, 0, 201326596), (57, 0, 201326596)]),
  (38, [(35, 2, 51001), (24, 1, 279314890), (50, 0, 201326596), (51, 0, 201326596), (52, 0, 201326596), (53, 0, 201326596), (54, 0, 201326596), (55, 0, 201326596), (56, 0, 201326596), (58, 0, 201326596), (59, 0, 201326596), (61, 0, 201326596), (60, 0, 201326596), (57, 0, 201326596)]),
  (39, [(24, 2, 1357251018), (25, 0, 1357251018), (26, 0, 1357251018), (27, 0, 1357251018), (28, 0, 1357283818), (29, 0, 1357283818), (30, 0, 1357283834), (31, 0, 1357283834), (32, 0, 1357300218), (33, 0, 1357300218), (34, 0, 1357300218), (35, 0, 1357300218)]),
  (40, [(24, 3, 1357251018)]), (41, [(25, 1, 1357252555), (26, 1, 1357252555), (27, 1, 1357252555), (62, 0, 201326596)]),
  (42, [(26, 2, 1357252555), (25, 0, 1357252555), (26, 0, 1357252555), (27, 0, 1357252555), (28, 0, 1357285355), (29, 0, 1357285355), (30, 0, 1357285371), (31, 0, 1357285371), (32, 0, 1357301755), (33, 0, 1357301755), (34, 0, 1357301755), (35, 0, 1357301755)]),
  (43, [(26, 3, 1357252555)]),
  (44, [(27, 2, 1357252555), (25, 0, 1357252555), (26, 0, 1357252555), (27, 0, 1357252555), (28, 0, 1357285355), (29, 0, 1357285355), (30, 0, 1357285371), (31, 0, 1357285371), (32, 0, 1357301755), (33, 0, 1357301755), (34, 0, 1357301755), (35, 0, 1357301755)]),
  (45, [(27, 3, 1357252555)]), (46, [(28, 1, 1357285355), (29, 1, 1357285355), (63, 0, 201326596)]),
  (47, [(29, 2, 1357285355), (30, 0, 1357285355), (31, 0, 1357285355), (32, 0, 1357301739), (33, 0, 1357301739), (34, 0, 1357301739), (35, 0, 1357301739)]),
  (48, [(29, 3, 1357285355)]), (49, [(30, 1, 1357285371), (31, 1, 1357285371), (64, 0, 201326596)]),
  (50, [(31, 2, 1357285371), (32, 0, 1357285371), (33, 0, 1357285371), (34, 0, 1357285371), (35, 0, 1357285371)]), (51, [(31, 3, 1357285371)]),
  (52, [(32, 1, 1357301755)]), (53, [(33, 1, 1357301755)]), (54, [(34, 1, 1357301755)]),
  (55, [(35, 1, 1357301755), (25, 0, 8), (26, 0, 8), (27, 0, 8), (28, 0, 32808), (29, 0, 32808), (30, 0, 32824), (31, 0, 32824), (32, 0, 49208), (33, 0, 49208), (34, 0, 49208), (35, 0, 49208)]),
  (56, [(35, 2, 1357301755)]), (57, [(35, 3, 1357301755)]), (58, [(36, 1, 790182149)]), (59, [(37, 1, 790182149)]), (60, [(38, 1, 790182149)]),
  (61, [(39, 1, 790182149)]), (62, [(40, 1, 790182149), (41, 1, 790182149)]), (63, [(40, 2, 790182149)]), (64, [(40, 3, 790182149)]),
  (65, [(41, 2, 790182149)]), (66, [(42, 1, 790182149), (43, 1, 790182149)]), (67, [(42, 2, 790182149), (43, 2, 790182149)]),
  (68, [(42, 3, 790182149)]), (69, [(42, 4, 790182149)]), (70, [(43, 3, 790182149)]), (71, [(44, 1, 790182149)]), (72, [(44, 2, 790182149)]),
  (73, [(45, 1, 790182149), (46, 1, 790182149)]), (74, [(46, 2, 790182149)]), (75, [(47, 1, 790182149)]), (76, [(47, 2, 790182149)]),
  (77, [(48, 1, 790182149), (49, 1, 790182149)]), (78, [(49, 2, 790182149)]), (79, [(50, 1, 201326596)]), (80, [(51, 1, 201326596)]),
  (81, [(52, 1, 201326596)]), (82, [(53, 1, 201326596)]), (83, [(54, 1, 201326596)]), (84, [(55, 1, 201326596)]),
  (85, [(56, 1, 201326596), (61, 1, 201326596)]), (86, [(60, 1, 201326596), (57, 1, 201326596)]), (87, [(58, 1, 201326596)]),
  (88, [(59, 1, 201326596)]), (89, [(59, 2, 201326596)]), (90, [(60, 2, 201326596)]), (91, [(61, 2, 201326596)]), (92, [(62, 1, 201326596)]),
  (93, [(63, 1, 201326596)]), (94, [(64, 1, 201326596)]), (95, [(65, 1, 790182149)]), (96, [(66, 1, 790182149)]), (97, [(67, 1, 790182149)]),
  (98, [(68, 1, 790182149)]), (99, [(69, 1, 790182149)]), (100, [(70, 1, 790182149)]), (101, [(70, 2, 790182149)]), (102, [(71, 1, 790182149)]),
  (103, [(72, 2, 790182149)]), (104, [(73, 1, 790182149)]), (105, [(74, 1, 790182149)]), (106, [(75, 2, 790182149)]), (107, [(76, 1, 790182149)]),
  (108, [(77, 1, 790182149)]), (109, [(78, 1, 790182149)])]

/-- The symbols that are on top of the stack in a state. -/
def pastRows : List (Nat × List Sym) := [
  (1, [.n .Formula]), (2, [.n .Biimplication]), (3, [.n .Implication]), (4, [.n .Biimplication, .t .lbrack]), (5, [.n .Biimplication, .t .lpar]),
  (6, [.n .BiimplicationOperator, .n .Biimplication]), (7, [.n .Implication, .n .BiimplicationOperator, .n .Biimplication]), (8, [.n .Xor]),
  (9, [.n .ImplicationOperator, .n .Implication]), (10, [.n .Xor, .n .ImplicationOperator, .n .Implication]), (11, [.n .Disjunction]),
  (12, [.n .XorOperator, .n .Xor]), (13, [.n .Disjunction, .n .XorOperator, .n .Xor]), (14, [.n .Conjunction]),
  (15, [.n .DisjunctionOperator, .n .Disjunction]), (16, [.n .Conjunction, .n .DisjunctionOperator, .n .Disjunction]),
  (17, [.n .BinaryTemporalFormula]), (18, [.n .ConjunctionOperator, .n .Conjunction]),
  (19, [.n .BinaryTemporalFormula, .n .ConjunctionOperator, .n .Conjunction]), (20, [.n .UnaryFormula]),
  (21, [.n .BinaryTemporalOperator, .n .BinaryTemporalFormula]), (22, [.n .UnaryFormula, .n .BinaryTemporalOperator, .n .BinaryTemporalFormula]),
  (23, [.n .AtomicFormula]), (24, [.n .UnaryTemporalOperator]), (25, [.n .UnaryFormula, .n .UnaryTemporalOperator]), (26, [.t .FALSE]),
  (27, [.t .TRUE]), (28, [.n .Brackets]), (29, [.n .BooleanAtomicFormula]), (30, [.t .lpar]), (31, [.t .rpar, .n .Biimplication, .t .lpar]),
  (32, [.t .lbrack]), (33, [.t .rbrack, .n .Biimplication, .t .lbrack]), (34, [.n .Assignment]), (35, [.n .CalculationSubformula]),
  (36, [.t .boolID]), (37, [.n .NumberExpression]), (38, [.n .NumberExpression, .t .lpar]),
  (39, [.n .NumberComparisonOperator, .n .NumberExpression]), (40, [.n .NumberExpression, .n .NumberComparisonOperator, .n .NumberExpression]),
  (41, [.n .MultiplicativeNumber]), (42, [.n .AdditionOperator, .n .MultiplicativeNumber]),
  (43, [.n .NumberExpression, .n .AdditionOperator, .n .MultiplicativeNumber]), (44, [.t .subtraction, .n .MultiplicativeNumber]),
  (45, [.n .NumberExpression, .t .subtraction, .n .MultiplicativeNumber]), (46, [.n .LeastSignificantBitOverwriteExpression]),
  (47, [.n .MultiplicationOperator, .n .LeastSignificantBitOverwriteExpression]),
  (48, [.n .LeastSignificantBitOverwriteExpression, .n .MultiplicationOperator, .n .LeastSignificantBitOverwriteExpression]),
  (49, [.n .AtomicNumberExpression]), (50, [.n .LeastSignificantBitOverwriteOperator, .n .AtomicNumberExpression]),
  (51, [.n .AtomicNumberExpression, .n .LeastSignificantBitOverwriteOperator, .n .AtomicNumberExpression]), (52, [.t .numID]), (53, [.t .numeral]),
  (54, [.n .NumberBrackets]), (55, [.t .lpar]), (56, [.n .NumberExpression, .t .lpar]), (57, [.t .rpar, .n .NumberExpression, .t .lpar]),
  (58, [.n .UntilOperator, .n .BinaryTemporalFormula]), (59, [.n .WeakUntilOperator, .n .BinaryTemporalFormula]),
  (60, [.t .U, .n .BinaryTemporalFormula]), (61, [.t .W, .n .BinaryTemporalFormula]), (62, [.t .minus, .n .Implication]),
  (63, [.t .minus, .t .minus, .n .Implication]), (64, [.t .greater, .t .minus, .t .minus, .n .Implication]),
  (65, [.t .greater, .t .minus, .n .Implication]), (66, [.t .less, .n .Biimplication]), (67, [.t .minus, .t .less, .n .Biimplication]),
  (68, [.t .minus, .t .minus, .t .less, .n .Biimplication]), (69, [.t .greater, .t .minus, .t .minus, .t .less, .n .Biimplication]),
  (70, [.t .greater, .t .minus, .t .less, .n .Biimplication]), (71, [.t .backslash, .n .Disjunction]),
  (72, [.t .slash, .t .backslash, .n .Disjunction]), (73, [.t .bar, .n .Disjunction]), (74, [.t .bar, .t .bar, .n .Disjunction]),
  (75, [.t .slash, .n .Conjunction]), (76, [.t .backslash, .t .slash, .n .Conjunction]), (77, [.t .amp, .n .Conjunction]),
  (78, [.t .amp, .t .amp, .n .Conjunction]), (79, [.n .GreaterOperator, .n .NumberExpression]), (80, [.n .EqualOperator, .n .NumberExpression]),
  (81, [.n .UnequalOperator, .n .NumberExpression]), (82, [.n .GreaterEqualOperator, .n .NumberExpression]),
  (83, [.n .SmallerEqualOperator, .n .NumberExpression]), (84, [.n .SmallerOperator, .n .NumberExpression]),
  (85, [.t .greater, .n .NumberExpression]), (86, [.t .less, .n .NumberExpression]), (87, [.t .equal, .n .NumberExpression]),
  (88, [.t .bang, .n .NumberExpression]), (89, [.t .equal, .t .bang, .n .NumberExpression]), (90, [.t .equal, .t .less, .n .NumberExpression]),
  (91, [.t .equal, .t .greater, .n .NumberExpression]), (92, [.t .plus, .n .MultiplicativeNumber]),
  (93, [.t .star, .n .LeastSignificantBitOverwriteExpression]), (94, [.t .LSB, .n .AtomicNumberExpression]), (95, [.t .caret, .n .Xor]),
  (96, [.n .FinallyOperator]), (97, [.n .NextOperator]), (98, [.n .GloballyOperator]), (99, [.n .NotOperator]), (100, [.t .less]),
  (101, [.t .greater, .t .less]), (102, [.t .F]), (103, [.t .rpar, .t .lpar]), (104, [.t .next]), (105, [.t .X]), (106, [.t .rbrack, .t .lbrack]),
  (107, [.t .G]), (108, [.t .bang]), (109, [.t .tilde]), (110, [.t .eof, .n .Formula])]

end Slugs.Model.Structured
