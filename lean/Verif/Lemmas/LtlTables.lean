import Verif.Model.LtlParser

/-!
Data about the tables of the parser of the translators from LTL, used in the proofs about it: they are checked there.
-/

namespace Slugs.Model.LtlText

open Slugs.Spec.LtlText

/-- The terminals (as a set of numbers) with which texts for a category start. -/
def firstNT : NT → Nat
  | .Formula => 372492293
  | .Biimplication => 372492293
  | .Implication => 372492293
  | .Xor => 372492293
  | .Disjunction => 372492293
  | .Conjunction => 372492293
  | .BinaryTemporalFormula => 372492293
  | .UnaryFormula => 372492293
  | .AtomicFormula => 35815428
  | .Brackets => 2097156
  | .BinaryTemporalOperator => 786432
  | .UntilOperator => 262144
  | .WeakUntilOperator => 524288
  | .ImplicationOperator => 64
  | .BiimplicationOperator => 2048
  | .DisjunctionOperator => 138412064
  | .ConjunctionOperator => 146
  | .XorOperator => 16777216
  | .UnaryTemporalOperator => 338774021
  | .FinallyOperator => 18432
  | .NextOperator => 68157444
  | .GloballyOperator => 2162688
  | .NotOperator => 268435457
  | .Assignment => 33554432

/-- Unit rules lead to smaller ranks. -/
def rankNT : NT → Nat
  | .Formula => 0
  | .Biimplication => 0
  | .Implication => 1
  | .Xor => 2
  | .Disjunction => 3
  | .Conjunction => 4
  | .BinaryTemporalFormula => 5
  | .UnaryFormula => 6
  | .AtomicFormula => 7
  | .Brackets => 8
  | .BinaryTemporalOperator => 0
  | .UntilOperator => 1
  | .WeakUntilOperator => 1
  | .ImplicationOperator => 0
  | .BiimplicationOperator => 0
  | .DisjunctionOperator => 0
  | .ConjunctionOperator => 0
  | .XorOperator => 0
  | .UnaryTemporalOperator => 0
  | .FinallyOperator => 1
  | .NextOperator => 1
  | .GloballyOperator => 1
  | .NotOperator => 1
  | .Assignment => 8

/-- The LR(1) items of the states: rule, position, and the terminals (as a set of numbers) that can follow. -/
def itemRows : List (Nat × List (Nat × Nat × Nat)) := [

  (0, [(0, 0, 536870912), (1, 0, 3072), (2, 0, 3072), (3, 0, 3136), (4, 0, 3136), (5, 0, 16780352), (6, 0, 16780352), (7, 0, 155192416), (8, 0, 155192416), (9, 0, 155192562), (10, 0, 155192562), (11, 0, 155978994), (12, 0, 155978994), (13, 0, 155978994), (14, 0, 155978994), (15, 0, 155978994), (16, 0, 155978994), (17, 0, 155978994), (18, 0, 155978994), (38, 0, 372492293), (39, 0, 372492293), (40, 0, 372492293), (41, 0, 372492293), (19, 0, 155978994), (20, 0, 155978994), (51, 0, 155978994), (52, 0, 155978994), (53, 0, 155978994), (42, 0, 372492293), (43, 0, 372492293), (44, 0, 372492293), (45, 0, 372492293), (46, 0, 372492293), (47, 0, 372492293), (48, 0, 372492293), (49, 0, 372492293), (50, 0, 372492293)]),
  (2, [(0, 1, 536870912), (2, 1, 3072), (27, 0, 372492293), (28, 0, 372492293)]), (3, [(0, 2, 536870912)]),
  (4, [(1, 1, 8391688), (4, 1, 8391752), (25, 0, 372492293), (26, 0, 372492293)]),
  (5, [(20, 2, 164367610), (2, 1, 8390656), (27, 0, 372492293), (28, 0, 372492293)]),
  (6, [(19, 2, 164367610), (2, 1, 2056), (27, 0, 372492293), (28, 0, 372492293)]),
  (7, [(2, 2, 8391688), (3, 0, 8391752), (4, 0, 8391752), (5, 0, 25168968), (6, 0, 25168968), (7, 0, 163581032), (8, 0, 163581032), (9, 0, 163581178), (10, 0, 163581178), (11, 0, 164367610), (12, 0, 164367610), (13, 0, 164367610), (14, 0, 164367610), (15, 0, 164367610), (16, 0, 164367610), (17, 0, 164367610), (18, 0, 164367610), (38, 0, 372492293), (39, 0, 372492293), (40, 0, 372492293), (41, 0, 372492293), (19, 0, 164367610), (20, 0, 164367610), (51, 0, 164367610), (52, 0, 164367610), (53, 0, 164367610), (42, 0, 372492293), (43, 0, 372492293), (44, 0, 372492293), (45, 0, 372492293), (46, 0, 372492293), (47, 0, 372492293), (48, 0, 372492293), (49, 0, 372492293), (50, 0, 372492293)]),
  (8, [(2, 3, 8391688), (4, 1, 8391752), (25, 0, 372492293), (26, 0, 372492293)]), (9, [(3, 1, 8391752), (6, 1, 25168968), (37, 0, 372492293)]),
  (10, [(4, 2, 8391752), (5, 0, 25168968), (6, 0, 25168968), (7, 0, 163581032), (8, 0, 163581032), (9, 0, 163581178), (10, 0, 163581178), (11, 0, 164367610), (12, 0, 164367610), (13, 0, 164367610), (14, 0, 164367610), (15, 0, 164367610), (16, 0, 164367610), (17, 0, 164367610), (18, 0, 164367610), (38, 0, 372492293), (39, 0, 372492293), (40, 0, 372492293), (41, 0, 372492293), (19, 0, 164367610), (20, 0, 164367610), (51, 0, 164367610), (52, 0, 164367610), (53, 0, 164367610), (42, 0, 372492293), (43, 0, 372492293), (44, 0, 372492293), (45, 0, 372492293), (46, 0, 372492293), (47, 0, 372492293), (48, 0, 372492293), (49, 0, 372492293), (50, 0, 372492293)]),
  (11, [(4, 3, 8391752), (6, 1, 25168968), (37, 0, 372492293)]),
  (12, [(5, 1, 25168968), (8, 1, 163581032), (29, 0, 372492293), (30, 0, 372492293), (31, 0, 372492293), (32, 0, 372492293)]),
  (13, [(6, 2, 25168968), (7, 0, 163581032), (8, 0, 163581032), (9, 0, 163581178), (10, 0, 163581178), (11, 0, 164367610), (12, 0, 164367610), (13, 0, 164367610), (14, 0, 164367610), (15, 0, 164367610), (16, 0, 164367610), (17, 0, 164367610), (18, 0, 164367610), (38, 0, 372492293), (39, 0, 372492293), (40, 0, 372492293), (41, 0, 372492293), (19, 0, 164367610), (20, 0, 164367610), (51, 0, 164367610), (52, 0, 164367610), (53, 0, 164367610), (42, 0, 372492293), (43, 0, 372492293), (44, 0, 372492293), (45, 0, 372492293), (46, 0, 372492293), (47, 0, 372492293), (48, 0, 372492293), (49, 0, 372492293), (50, 0, 372492293)]),
  (14, [(6, 3, 25168968), (8, 1, 163581032), (29, 0, 372492293), (30, 0, 372492293), (31, 0, 372492293), (32, 0, 372492293)]),
  (15, [(7, 1, 163581032), (10, 1, 163581178), (33, 0, 372492293), (34, 0, 372492293), (35, 0, 372492293), (36, 0, 372492293)]),
  (16, [(8, 2, 163581032), (9, 0, 163581178), (10, 0, 163581178), (11, 0, 164367610), (12, 0, 164367610), (13, 0, 164367610), (14, 0, 164367610), (15, 0, 164367610), (16, 0, 164367610), (17, 0, 164367610), (18, 0, 164367610), (38, 0, 372492293), (39, 0, 372492293), (40, 0, 372492293), (41, 0, 372492293), (19, 0, 164367610), (20, 0, 164367610), (51, 0, 164367610), (52, 0, 164367610), (53, 0, 164367610), (42, 0, 372492293), (43, 0, 372492293), (44, 0, 372492293), (45, 0, 372492293), (46, 0, 372492293), (47, 0, 372492293), (48, 0, 372492293), (49, 0, 372492293), (50, 0, 372492293)]),
  (17, [(8, 3, 163581032), (10, 1, 163581178), (33, 0, 372492293), (34, 0, 372492293), (35, 0, 372492293), (36, 0, 372492293)]),
  (18, [(9, 1, 163581178), (12, 1, 164367610), (21, 0, 372492293), (22, 0, 372492293), (23, 0, 372492293), (24, 0, 372492293)]),
  (19, [(10, 2, 163581178), (11, 0, 164367610), (12, 0, 164367610), (13, 0, 164367610), (14, 0, 164367610), (15, 0, 164367610), (16, 0, 164367610), (17, 0, 164367610), (18, 0, 164367610), (38, 0, 372492293), (39, 0, 372492293), (40, 0, 372492293), (41, 0, 372492293), (19, 0, 164367610), (20, 0, 164367610), (51, 0, 164367610), (52, 0, 164367610), (53, 0, 164367610), (42, 0, 372492293), (43, 0, 372492293), (44, 0, 372492293), (45, 0, 372492293), (46, 0, 372492293), (47, 0, 372492293), (48, 0, 372492293), (49, 0, 372492293), (50, 0, 372492293)]),
  (20, [(10, 3, 163581178), (12, 1, 164367610), (21, 0, 372492293), (22, 0, 372492293), (23, 0, 372492293), (24, 0, 372492293)]),
  (21, [(11, 1, 164367610)]),
  (22, [(12, 2, 164367610), (13, 0, 164367610), (14, 0, 164367610), (15, 0, 164367610), (16, 0, 164367610), (17, 0, 164367610), (18, 0, 164367610), (38, 0, 372492293), (39, 0, 372492293), (40, 0, 372492293), (41, 0, 372492293), (19, 0, 164367610), (20, 0, 164367610), (51, 0, 164367610), (52, 0, 164367610), (53, 0, 164367610), (42, 0, 372492293), (43, 0, 372492293), (44, 0, 372492293), (45, 0, 372492293), (46, 0, 372492293), (47, 0, 372492293), (48, 0, 372492293), (49, 0, 372492293), (50, 0, 372492293)]),
  (23, [(12, 3, 164367610)]), (24, [(13, 1, 164367610)]),
  (25, [(14, 1, 164367610), (13, 0, 164367610), (14, 0, 164367610), (15, 0, 164367610), (16, 0, 164367610), (17, 0, 164367610), (18, 0, 164367610), (38, 0, 372492293), (39, 0, 372492293), (40, 0, 372492293), (41, 0, 372492293), (19, 0, 164367610), (20, 0, 164367610), (51, 0, 164367610), (52, 0, 164367610), (53, 0, 164367610), (42, 0, 372492293), (43, 0, 372492293), (44, 0, 372492293), (45, 0, 372492293), (46, 0, 372492293), (47, 0, 372492293), (48, 0, 372492293), (49, 0, 372492293), (50, 0, 372492293)]),
  (26, [(14, 2, 164367610)]), (27, [(15, 1, 164367610)]), (28, [(16, 1, 164367610)]), (29, [(17, 1, 164367610)]), (30, [(18, 1, 164367610)]),
  (31, [(19, 1, 164367610), (44, 1, 372492293), (1, 0, 2056), (2, 0, 2056), (3, 0, 2120), (4, 0, 2120), (5, 0, 16779336), (6, 0, 16779336), (7, 0, 155191400), (8, 0, 155191400), (9, 0, 155191546), (10, 0, 155191546), (11, 0, 155977978), (12, 0, 155977978), (13, 0, 155977978), (14, 0, 155977978), (15, 0, 155977978), (16, 0, 155977978), (17, 0, 155977978), (18, 0, 155977978), (38, 0, 372492293), (39, 0, 372492293), (40, 0, 372492293), (41, 0, 372492293), (19, 0, 155977978), (20, 0, 155977978), (51, 0, 155977978), (52, 0, 155977978), (53, 0, 155977978), (42, 0, 372492293), (43, 0, 372492293), (44, 0, 372492293), (45, 0, 372492293), (46, 0, 372492293), (47, 0, 372492293), (48, 0, 372492293), (49, 0, 372492293), (50, 0, 372492293)]),
  (32, [(19, 3, 164367610)]),
  (33, [(20, 1, 164367610), (47, 1, 372492293), (1, 0, 8390656), (2, 0, 8390656), (3, 0, 8390720), (4, 0, 8390720), (5, 0, 25167936), (6, 0, 25167936), (7, 0, 163580000), (8, 0, 163580000), (9, 0, 163580146), (10, 0, 163580146), (11, 0, 164366578), (12, 0, 164366578), (13, 0, 164366578), (14, 0, 164366578), (15, 0, 164366578), (16, 0, 164366578), (17, 0, 164366578), (18, 0, 164366578), (38, 0, 372492293), (39, 0, 372492293), (40, 0, 372492293), (41, 0, 372492293), (19, 0, 164366578), (20, 0, 164366578), (51, 0, 164366578), (52, 0, 164366578), (53, 0, 164366578), (42, 0, 372492293), (43, 0, 372492293), (44, 0, 372492293), (45, 0, 372492293), (46, 0, 372492293), (47, 0, 372492293), (48, 0, 372492293), (49, 0, 372492293), (50, 0, 372492293)]),
  (34, [(20, 3, 164367610)]), (35, [(21, 1, 372492293)]), (36, [(22, 1, 372492293)]), (37, [(23, 1, 372492293)]), (38, [(24, 1, 372492293)]),
  (39, [(25, 1, 372492293), (26, 1, 372492293)]), (40, [(25, 2, 372492293)]), (41, [(25, 3, 372492293)]), (42, [(26, 2, 372492293)]),
  (43, [(27, 1, 372492293), (28, 1, 372492293)]), (44, [(27, 2, 372492293), (28, 2, 372492293)]), (45, [(27, 3, 372492293)]),
  (46, [(27, 4, 372492293)]), (47, [(28, 3, 372492293)]), (48, [(29, 1, 372492293)]), (49, [(30, 1, 372492293)]), (50, [(30, 2, 372492293)]),
  (51, [(31, 1, 372492293), (32, 1, 372492293)]), (52, [(32, 2, 372492293)]), (53, [(33, 1, 372492293)]), (54, [(34, 1, 372492293)]),
  (55, [(34, 2, 372492293)]), (56, [(35, 1, 372492293), (36, 1, 372492293)]), (57, [(36, 2, 372492293)]), (58, [(37, 1, 372492293)]),
  (59, [(38, 1, 372492293)]), (60, [(39, 1, 372492293)]), (61, [(40, 1, 372492293)]), (62, [(41, 1, 372492293)]), (63, [(42, 1, 372492293)]),
  (64, [(42, 2, 372492293)]), (65, [(43, 1, 372492293)]), (66, [(44, 2, 372492293)]), (67, [(45, 1, 372492293)]), (68, [(46, 1, 372492293)]),
  (69, [(47, 2, 372492293)]), (70, [(48, 1, 372492293)]), (71, [(49, 1, 372492293)]), (72, [(50, 1, 372492293)]),
  (73, [(51, 1, 164367610), (52, 1, 164367610), (53, 1, 164367610)]), (74, [(52, 2, 164367610), (53, 2, 164367610)]), (75, [(52, 3, 164367610)]),
  (76, [(53, 3, 164367610)])]

/-- The symbols that are on top of the stack in a state. -/
def pastRows : List (Nat × List Sym) := [
  (1, [.n .Formula]), (2, [.n .Biimplication]), (3, [.t .semi, .n .Biimplication]), (4, [.n .Implication]), (5, [.n .Biimplication, .t .lbrack]),
  (6, [.n .Biimplication, .t .lpar]), (7, [.n .BiimplicationOperator, .n .Biimplication]),
  (8, [.n .Implication, .n .BiimplicationOperator, .n .Biimplication]), (9, [.n .Xor]), (10, [.n .ImplicationOperator, .n .Implication]),
  (11, [.n .Xor, .n .ImplicationOperator, .n .Implication]), (12, [.n .Disjunction]), (13, [.n .XorOperator, .n .Xor]),
  (14, [.n .Disjunction, .n .XorOperator, .n .Xor]), (15, [.n .Conjunction]), (16, [.n .DisjunctionOperator, .n .Disjunction]),
  (17, [.n .Conjunction, .n .DisjunctionOperator, .n .Disjunction]), (18, [.n .BinaryTemporalFormula]),
  (19, [.n .ConjunctionOperator, .n .Conjunction]), (20, [.n .BinaryTemporalFormula, .n .ConjunctionOperator, .n .Conjunction]),
  (21, [.n .UnaryFormula]), (22, [.n .BinaryTemporalOperator, .n .BinaryTemporalFormula]),
  (23, [.n .UnaryFormula, .n .BinaryTemporalOperator, .n .BinaryTemporalFormula]), (24, [.n .AtomicFormula]), (25, [.n .UnaryTemporalOperator]),
  (26, [.n .UnaryFormula, .n .UnaryTemporalOperator]), (27, [.t .FALSE]), (28, [.t .TRUE]), (29, [.n .Brackets]), (30, [.n .Assignment]),
  (31, [.t .lpar]), (32, [.t .rpar, .n .Biimplication, .t .lpar]), (33, [.t .lbrack]), (34, [.t .rbrack, .n .Biimplication, .t .lbrack]),
  (35, [.n .UntilOperator, .n .BinaryTemporalFormula]), (36, [.n .WeakUntilOperator, .n .BinaryTemporalFormula]),
  (37, [.t .U, .n .BinaryTemporalFormula]), (38, [.t .W, .n .BinaryTemporalFormula]), (39, [.t .minus, .n .Implication]),
  (40, [.t .minus, .t .minus, .n .Implication]), (41, [.t .greater, .t .minus, .t .minus, .n .Implication]),
  (42, [.t .greater, .t .minus, .n .Implication]), (43, [.t .less, .n .Biimplication]), (44, [.t .minus, .t .less, .n .Biimplication]),
  (45, [.t .minus, .t .minus, .t .less, .n .Biimplication]), (46, [.t .greater, .t .minus, .t .minus, .t .less, .n .Biimplication]),
  (47, [.t .greater, .t .minus, .t .less, .n .Biimplication]), (48, [.t .plus, .n .Disjunction]), (49, [.t .backslash, .n .Disjunction]),
  (50, [.t .slash, .t .backslash, .n .Disjunction]), (51, [.t .bar, .n .Disjunction]), (52, [.t .bar, .t .bar, .n .Disjunction]),
  (53, [.t .star, .n .Conjunction]), (54, [.t .slash, .n .Conjunction]), (55, [.t .backslash, .t .slash, .n .Conjunction]),
  (56, [.t .amp, .n .Conjunction]), (57, [.t .amp, .t .amp, .n .Conjunction]), (58, [.t .caret, .n .Xor]), (59, [.n .FinallyOperator]),
  (60, [.n .NextOperator]), (61, [.n .GloballyOperator]), (62, [.n .NotOperator]), (63, [.t .less]), (64, [.t .greater, .t .less]), (65, [.t .F]),
  (66, [.t .rpar, .t .lpar]), (67, [.t .next]), (68, [.t .X]), (69, [.t .rbrack, .t .lbrack]), (70, [.t .G]), (71, [.t .bang]), (72, [.t .tilde]),
  (73, [.t .id]), (74, [.t .equal, .t .id]), (75, [.t .zero, .t .equal, .t .id]), (76, [.t .one, .t .equal, .t .id]), (77, [.t .eof, .n .Formula])]

end Slugs.Model.LtlText
