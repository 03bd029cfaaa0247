import Verif.Spec.LtlGrammar

/-!
The parser of the translators from LTL, `tools/parser.py` (an LR parser generated by wisent): its tables and its main loop.
The grammar is the one of the comment in lines 78-132 of that file, which agrees with `grammar.wi`.
-/

namespace Slugs.Model.LtlText

open Slugs.Spec.LtlText

/-- `Parser._reduce`, `parser.py:161-607`: in the state, with one of the symbols ahead, `n` trees are combined. -/
def reduceRows : List (Nat × List Term × NT × Nat) := [
  (3, [.eof], .Formula, 2), (4, [.rpar, .semi, .less, .rbrack], .Biimplication, 1), (8, [.rpar, .semi, .less, .rbrack], .Biimplication, 3),
  (9, [.rpar, .minus, .semi, .less, .rbrack], .Implication, 1), (11, [.rpar, .minus, .semi, .less, .rbrack], .Implication, 3),
  (12, [.rpar, .minus, .semi, .less, .rbrack, .caret], .Xor, 1), (14, [.rpar, .minus, .semi, .less, .rbrack, .caret], .Xor, 3),
  (15, [.rpar, .plus, .minus, .semi, .less, .backslash, .rbrack, .caret, .bar], .Disjunction, 1),
  (17, [.rpar, .plus, .minus, .semi, .less, .backslash, .rbrack, .caret, .bar], .Disjunction, 3),
  (18, [.amp, .rpar, .star, .plus, .minus, .slash, .semi, .less, .backslash, .rbrack, .caret, .bar], .Conjunction, 1),
  (20, [.amp, .rpar, .star, .plus, .minus, .slash, .semi, .less, .backslash, .rbrack, .caret, .bar], .Conjunction, 3),
  (21, [.amp, .rpar, .star, .plus, .minus, .slash, .semi, .less, .U, .W, .backslash, .rbrack, .caret, .bar], .BinaryTemporalFormula, 1),
  (23, [.amp, .rpar, .star, .plus, .minus, .slash, .semi, .less, .U, .W, .backslash, .rbrack, .caret, .bar], .BinaryTemporalFormula, 3),
  (24, [.amp, .rpar, .star, .plus, .minus, .slash, .semi, .less, .U, .W, .backslash, .rbrack, .caret, .bar], .UnaryFormula, 1),
  (26, [.amp, .rpar, .star, .plus, .minus, .slash, .semi, .less, .U, .W, .backslash, .rbrack, .caret, .bar], .UnaryFormula, 2),
  (27, [.amp, .rpar, .star, .plus, .minus, .slash, .semi, .less, .U, .W, .backslash, .rbrack, .caret, .bar], .AtomicFormula, 1),
  (28, [.amp, .rpar, .star, .plus, .minus, .slash, .semi, .less, .U, .W, .backslash, .rbrack, .caret, .bar], .AtomicFormula, 1),
  (29, [.amp, .rpar, .star, .plus, .minus, .slash, .semi, .less, .U, .W, .backslash, .rbrack, .caret, .bar], .AtomicFormula, 1),
  (30, [.amp, .rpar, .star, .plus, .minus, .slash, .semi, .less, .U, .W, .backslash, .rbrack, .caret, .bar], .AtomicFormula, 1),
  (32, [.amp, .rpar, .star, .plus, .minus, .slash, .semi, .less, .U, .W, .backslash, .rbrack, .caret, .bar], .Brackets, 3),
  (34, [.amp, .rpar, .star, .plus, .minus, .slash, .semi, .less, .U, .W, .backslash, .rbrack, .caret, .bar], .Brackets, 3),
  (35, [.bang, .lpar, .less, .F, .FALSE, .G, .TRUE, .X, .lbrack, .id, .next, .tilde], .BinaryTemporalOperator, 1),
  (36, [.bang, .lpar, .less, .F, .FALSE, .G, .TRUE, .X, .lbrack, .id, .next, .tilde], .BinaryTemporalOperator, 1),
  (37, [.bang, .lpar, .less, .F, .FALSE, .G, .TRUE, .X, .lbrack, .id, .next, .tilde], .UntilOperator, 1),
  (38, [.bang, .lpar, .less, .F, .FALSE, .G, .TRUE, .X, .lbrack, .id, .next, .tilde], .WeakUntilOperator, 1),
  (41, [.bang, .lpar, .less, .F, .FALSE, .G, .TRUE, .X, .lbrack, .id, .next, .tilde], .ImplicationOperator, 3),
  (42, [.bang, .lpar, .less, .F, .FALSE, .G, .TRUE, .X, .lbrack, .id, .next, .tilde], .ImplicationOperator, 2),
  (46, [.bang, .lpar, .less, .F, .FALSE, .G, .TRUE, .X, .lbrack, .id, .next, .tilde], .BiimplicationOperator, 4),
  (47, [.bang, .lpar, .less, .F, .FALSE, .G, .TRUE, .X, .lbrack, .id, .next, .tilde], .BiimplicationOperator, 3),
  (48, [.bang, .lpar, .less, .F, .FALSE, .G, .TRUE, .X, .lbrack, .id, .next, .tilde], .DisjunctionOperator, 1),
  (50, [.bang, .lpar, .less, .F, .FALSE, .G, .TRUE, .X, .lbrack, .id, .next, .tilde], .DisjunctionOperator, 2),
  (51, [.bang, .lpar, .less, .F, .FALSE, .G, .TRUE, .X, .lbrack, .id, .next, .tilde], .DisjunctionOperator, 1),
  (52, [.bang, .lpar, .less, .F, .FALSE, .G, .TRUE, .X, .lbrack, .id, .next, .tilde], .DisjunctionOperator, 2),
  (53, [.bang, .lpar, .less, .F, .FALSE, .G, .TRUE, .X, .lbrack, .id, .next, .tilde], .ConjunctionOperator, 1),
  (55, [.bang, .lpar, .less, .F, .FALSE, .G, .TRUE, .X, .lbrack, .id, .next, .tilde], .ConjunctionOperator, 2),
  (56, [.bang, .lpar, .less, .F, .FALSE, .G, .TRUE, .X, .lbrack, .id, .next, .tilde], .ConjunctionOperator, 1),
  (57, [.bang, .lpar, .less, .F, .FALSE, .G, .TRUE, .X, .lbrack, .id, .next, .tilde], .ConjunctionOperator, 2),
  (58, [.bang, .lpar, .less, .F, .FALSE, .G, .TRUE, .X, .lbrack, .id, .next, .tilde], .XorOperator, 1),
  (59, [.bang, .lpar, .less, .F, .FALSE, .G, .TRUE, .X, .lbrack, .id, .next, .tilde], .UnaryTemporalOperator, 1),
  (60, [.bang, .lpar, .less, .F, .FALSE, .G, .TRUE, .X, .lbrack, .id, .next, .tilde], .UnaryTemporalOperator, 1),
  (61, [.bang, .lpar, .less, .F, .FALSE, .G, .TRUE, .X, .lbrack, .id, .next, .tilde], .UnaryTemporalOperator, 1),
  (62, [.bang, .lpar, .less, .F, .FALSE, .G, .TRUE, .X, .lbrack, .id, .next, .tilde], .UnaryTemporalOperator, 1),
  (64, [.bang, .lpar, .less, .F, .FALSE, .G, .TRUE, .X, .lbrack, .id, .next, .tilde], .FinallyOperator, 2),
  (65, [.bang, .lpar, .less, .F, .FALSE, .G, .TRUE, .X, .lbrack, .id, .next, .tilde], .FinallyOperator, 1),
  (66, [.bang, .lpar, .less, .F, .FALSE, .G, .TRUE, .X, .lbrack, .id, .next, .tilde], .NextOperator, 2),
  (67, [.bang, .lpar, .less, .F, .FALSE, .G, .TRUE, .X, .lbrack, .id, .next, .tilde], .NextOperator, 1),
  (68, [.bang, .lpar, .less, .F, .FALSE, .G, .TRUE, .X, .lbrack, .id, .next, .tilde], .NextOperator, 1),
  (69, [.bang, .lpar, .less, .F, .FALSE, .G, .TRUE, .X, .lbrack, .id, .next, .tilde], .GloballyOperator, 2),
  (70, [.bang, .lpar, .less, .F, .FALSE, .G, .TRUE, .X, .lbrack, .id, .next, .tilde], .GloballyOperator, 1),
  (71, [.bang, .lpar, .less, .F, .FALSE, .G, .TRUE, .X, .lbrack, .id, .next, .tilde], .NotOperator, 1),
  (72, [.bang, .lpar, .less, .F, .FALSE, .G, .TRUE, .X, .lbrack, .id, .next, .tilde], .NotOperator, 1),
  (73, [.amp, .rpar, .star, .plus, .minus, .slash, .semi, .less, .U, .W, .backslash, .rbrack, .caret, .bar], .Assignment, 1),
  (75, [.amp, .rpar, .star, .plus, .minus, .slash, .semi, .less, .U, .W, .backslash, .rbrack, .caret, .bar], .Assignment, 3),
  (76, [.amp, .rpar, .star, .plus, .minus, .slash, .semi, .less, .U, .W, .backslash, .rbrack, .caret, .bar], .Assignment, 3)]

/-- `Parser._goto`, `parser.py:608-676`. -/
def gotoRows : List (Nat × List (NT × Nat)) := [

  (0, [(.Assignment, 30), (.AtomicFormula, 24), (.Biimplication, 2), (.BinaryTemporalFormula, 18), (.Brackets, 29), (.Conjunction, 15), (.Disjunction, 12), (.FinallyOperator, 59), (.Formula, 1), (.GloballyOperator, 61), (.Implication, 4), (.NextOperator, 60), (.NotOperator, 62), (.UnaryFormula, 21), (.UnaryTemporalOperator, 25), (.Xor, 9)]),
  (2, [(.BiimplicationOperator, 7)]), (4, [(.ImplicationOperator, 10)]), (5, [(.BiimplicationOperator, 7)]), (6, [(.BiimplicationOperator, 7)]),
  (7, [(.Assignment, 30), (.AtomicFormula, 24), (.BinaryTemporalFormula, 18), (.Brackets, 29), (.Conjunction, 15), (.Disjunction, 12), (.FinallyOperator, 59), (.GloballyOperator, 61), (.Implication, 8), (.NextOperator, 60), (.NotOperator, 62), (.UnaryFormula, 21), (.UnaryTemporalOperator, 25), (.Xor, 9)]),
  (8, [(.ImplicationOperator, 10)]), (9, [(.XorOperator, 13)]),
  (10, [(.Assignment, 30), (.AtomicFormula, 24), (.BinaryTemporalFormula, 18), (.Brackets, 29), (.Conjunction, 15), (.Disjunction, 12), (.FinallyOperator, 59), (.GloballyOperator, 61), (.NextOperator, 60), (.NotOperator, 62), (.UnaryFormula, 21), (.UnaryTemporalOperator, 25), (.Xor, 11)]),
  (11, [(.XorOperator, 13)]), (12, [(.DisjunctionOperator, 16)]),
  (13, [(.Assignment, 30), (.AtomicFormula, 24), (.BinaryTemporalFormula, 18), (.Brackets, 29), (.Conjunction, 15), (.Disjunction, 14), (.FinallyOperator, 59), (.GloballyOperator, 61), (.NextOperator, 60), (.NotOperator, 62), (.UnaryFormula, 21), (.UnaryTemporalOperator, 25)]),
  (14, [(.DisjunctionOperator, 16)]), (15, [(.ConjunctionOperator, 19)]),
  (16, [(.Assignment, 30), (.AtomicFormula, 24), (.BinaryTemporalFormula, 18), (.Brackets, 29), (.Conjunction, 17), (.FinallyOperator, 59), (.GloballyOperator, 61), (.NextOperator, 60), (.NotOperator, 62), (.UnaryFormula, 21), (.UnaryTemporalOperator, 25)]),
  (17, [(.ConjunctionOperator, 19)]), (18, [(.BinaryTemporalOperator, 22), (.UntilOperator, 35), (.WeakUntilOperator, 36)]),
  (19, [(.Assignment, 30), (.AtomicFormula, 24), (.BinaryTemporalFormula, 20), (.Brackets, 29), (.FinallyOperator, 59), (.GloballyOperator, 61), (.NextOperator, 60), (.NotOperator, 62), (.UnaryFormula, 21), (.UnaryTemporalOperator, 25)]),
  (20, [(.BinaryTemporalOperator, 22), (.UntilOperator, 35), (.WeakUntilOperator, 36)]),
  (22, [(.Assignment, 30), (.AtomicFormula, 24), (.Brackets, 29), (.FinallyOperator, 59), (.GloballyOperator, 61), (.NextOperator, 60), (.NotOperator, 62), (.UnaryFormula, 23), (.UnaryTemporalOperator, 25)]),
  (25, [(.Assignment, 30), (.AtomicFormula, 24), (.Brackets, 29), (.FinallyOperator, 59), (.GloballyOperator, 61), (.NextOperator, 60), (.NotOperator, 62), (.UnaryFormula, 26), (.UnaryTemporalOperator, 25)]),
  (31, [(.Assignment, 30), (.AtomicFormula, 24), (.Biimplication, 6), (.BinaryTemporalFormula, 18), (.Brackets, 29), (.Conjunction, 15), (.Disjunction, 12), (.FinallyOperator, 59), (.GloballyOperator, 61), (.Implication, 4), (.NextOperator, 60), (.NotOperator, 62), (.UnaryFormula, 21), (.UnaryTemporalOperator, 25), (.Xor, 9)]),
  (33, [(.Assignment, 30), (.AtomicFormula, 24), (.Biimplication, 5), (.BinaryTemporalFormula, 18), (.Brackets, 29), (.Conjunction, 15), (.Disjunction, 12), (.FinallyOperator, 59), (.GloballyOperator, 61), (.Implication, 4), (.NextOperator, 60), (.NotOperator, 62), (.UnaryFormula, 21), (.UnaryTemporalOperator, 25), (.Xor, 9)])]

/-- `Parser._shift`, `parser.py:677-719`. -/
def shiftRows : List (Nat × List (Term × Nat)) := [

  (0, [(.bang, 71), (.lpar, 31), (.less, 63), (.F, 65), (.FALSE, 27), (.G, 70), (.TRUE, 28), (.X, 68), (.lbrack, 33), (.id, 73), (.next, 67), (.tilde, 72)]),
  (1, [(.eof, 77)]), (2, [(.semi, 3), (.less, 43)]), (4, [(.minus, 39)]), (5, [(.less, 43), (.rbrack, 34)]), (6, [(.rpar, 32), (.less, 43)]),
  (7, [(.bang, 71), (.lpar, 31), (.less, 63), (.F, 65), (.FALSE, 27), (.G, 70), (.TRUE, 28), (.X, 68), (.lbrack, 33), (.id, 73), (.next, 67), (.tilde, 72)]),
  (8, [(.minus, 39)]), (9, [(.caret, 58)]),
  (10, [(.bang, 71), (.lpar, 31), (.less, 63), (.F, 65), (.FALSE, 27), (.G, 70), (.TRUE, 28), (.X, 68), (.lbrack, 33), (.id, 73), (.next, 67), (.tilde, 72)]),
  (11, [(.caret, 58)]), (12, [(.plus, 48), (.backslash, 49), (.bar, 51)]),
  (13, [(.bang, 71), (.lpar, 31), (.less, 63), (.F, 65), (.FALSE, 27), (.G, 70), (.TRUE, 28), (.X, 68), (.lbrack, 33), (.id, 73), (.next, 67), (.tilde, 72)]),
  (14, [(.plus, 48), (.backslash, 49), (.bar, 51)]), (15, [(.amp, 56), (.star, 53), (.slash, 54)]),
  (16, [(.bang, 71), (.lpar, 31), (.less, 63), (.F, 65), (.FALSE, 27), (.G, 70), (.TRUE, 28), (.X, 68), (.lbrack, 33), (.id, 73), (.next, 67), (.tilde, 72)]),
  (17, [(.amp, 56), (.star, 53), (.slash, 54)]), (18, [(.U, 37), (.W, 38)]),
  (19, [(.bang, 71), (.lpar, 31), (.less, 63), (.F, 65), (.FALSE, 27), (.G, 70), (.TRUE, 28), (.X, 68), (.lbrack, 33), (.id, 73), (.next, 67), (.tilde, 72)]),
  (20, [(.U, 37), (.W, 38)]),
  (22, [(.bang, 71), (.lpar, 31), (.less, 63), (.F, 65), (.FALSE, 27), (.G, 70), (.TRUE, 28), (.X, 68), (.lbrack, 33), (.id, 73), (.next, 67), (.tilde, 72)]),
  (25, [(.bang, 71), (.lpar, 31), (.less, 63), (.F, 65), (.FALSE, 27), (.G, 70), (.TRUE, 28), (.X, 68), (.lbrack, 33), (.id, 73), (.next, 67), (.tilde, 72)]),
  (31, [(.bang, 71), (.lpar, 31), (.rpar, 66), (.less, 63), (.F, 65), (.FALSE, 27), (.G, 70), (.TRUE, 28), (.X, 68), (.lbrack, 33), (.id, 73), (.next, 67), (.tilde, 72)]),
  (33, [(.bang, 71), (.lpar, 31), (.less, 63), (.F, 65), (.FALSE, 27), (.G, 70), (.TRUE, 28), (.X, 68), (.lbrack, 33), (.rbrack, 69), (.id, 73), (.next, 67), (.tilde, 72)]),
  (39, [(.minus, 40), (.greater, 42)]), (40, [(.greater, 41)]), (43, [(.minus, 44)]), (44, [(.minus, 45), (.greater, 47)]), (45, [(.greater, 46)]),
  (49, [(.slash, 50)]), (51, [(.bar, 52)]), (54, [(.backslash, 55)]), (56, [(.amp, 57)]), (63, [(.greater, 64)]), (73, [(.equal, 74)]),
  (74, [(.zero, 75), (.one, 76)])]

def lookup {A B : Type} [DecidableEq A] (a : A) : List (A × B) → Option B
  | [] => none
  | (x, y) :: l => if x = a then some y else lookup a l

/-- `self._shift.get((state,token))`. -/
def shift (state : Nat) (a : Term) : Option Nat := (lookup state shiftRows).bind (lookup a)

/-- `self._goto.get((state,X))`. -/
def goto (state : Nat) (X : NT) : Option Nat := (lookup state gotoRows).bind (lookup X)

/-- `self._reduce.get((state,token))`. -/
def reduce (state : Nat) (a : Term) : Option (NT × Nat) :=
  (reduceRows.find? fun r => r.1 = state && r.2.1.contains a).map fun r => r.2.2

/-- `Parser._halting_state`, `parser.py:160`. -/
def haltingState : Nat := 77

/-- The stack, with its top at the head: states and the trees read in these states. -/
abbrev Stack := List (Nat × Tree)

/-- The outcomes of the parser: a tree, a parse error, or (never, see `parse_total`) no end of the loop. -/
inductive Parsed where
  | tree (t : Tree)
  | error
  | running

/-- The loop of `Parser._parse`, `parser.py:762-790`, from within `Parser.parse`, `parser.py:812-884`.  Once there is an error, an exception is raised in any case; the
attempts to repair the line before that only serve to report more errors and are not modelled. -/
def lrLoop : Nat → Nat → Stack → List Tok → Parsed
  | 0, _, _, _ => .running
  | fuel + 1, state, stack, input =>
    if state = haltingState then
      match stack.getLast? with
      | some (_, t) => .tree t
      | none => .error
    else
      match input with
      | [] => .error
      | a :: rest =>
        match shift state a.kind with
        | some k => lrLoop fuel k ((state, .leaf a) :: stack) rest
        | none =>
          match reduce state a.kind with
          | none => .error
          | some (X, n) =>
            let state' := if n = 0 then state else ((stack.drop (n - 1)).head?.map Prod.fst).getD state
            match goto state' X with
            | none => .error
            | some k => lrLoop fuel k ((state', .node X ((stack.take n).reverse.map Prod.snd)) :: stack.drop n) input

/-- `Parser.parse`, `parser.py:812-884`. -/
def parse (toks : List Tok) : Parsed := lrLoop (64 * toks.length + 200) 0 [] (toks ++ [⟨.eof, []⟩])

end Slugs.Model.LtlText
