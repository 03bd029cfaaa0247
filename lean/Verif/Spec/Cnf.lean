import Verif.Spec.SpecFile

/-!
The output of `--computeCNFFormOfTheSpecification`, and what it says about a specification.
-/

namespace Slugs.Spec

/-- What a line with a clause is about. -/
inductive ClauseKind where
  | safetyGuarantee | safetyAssumption | init
  deriving DecidableEq, Repr

/-- The lines of the output: `Input: x k k'` and `Output: x k k'` declare that `k` is the number of `x` and `k'` that of the next value of `x`; a clause is a
disjunction of literals; the line of a liveness constraint is a list of cubes (conjunctions of literals).  A literal is the number of a variable,
negative if the variable is negated. -/
inductive CnfLine where
  | input (x : Word) (k k' : Nat)
  | output (x : Word) (k k' : Nat)
  | clause (kind : ClauseKind) (literals : List Int)
  | cubes (guarantee : Bool) (cubes : List (List Int))
  deriving DecidableEq, Repr

/-- The number `k` stands for the name `y`. -/
def NumberOf (ls : List CnfLine) (k : Nat) (y : Word) : Prop :=
  ∃ x k1 k2, (CnfLine.input x k1 k2 ∈ ls ∨ CnfLine.output x k1 k2 ∈ ls) ∧ ((k = k1 ∧ y = x) ∨ (k = k2 ∧ y = prime x))

/-- A literal holds in the transition from `p` to `q`. -/
def LiteralHolds (sp : SpecFile) (ls : List CnfLine) (p q : Pos sp.In sp.Out) (l : Int) : Prop :=
  ∃ y, NumberOf ls l.natAbs y ∧ sp.look p q y = decide (0 < l)

/-- A clause: one of the literals holds. -/
def ClauseHolds (sp : SpecFile) (ls : List CnfLine) (p q : Pos sp.In sp.Out) (lits : List Int) : Prop := ∃ l ∈ lits, LiteralHolds sp ls p q l

/-- A cube: all literals hold. -/
def CubeHolds (sp : SpecFile) (ls : List CnfLine) (p q : Pos sp.In sp.Out) (lits : List Int) : Prop := ∀ l ∈ lits, LiteralHolds sp ls p q l

/-- All clauses of one kind hold. -/
def ClausesHold (sp : SpecFile) (ls : List CnfLine) (kind : ClauseKind) (p q : Pos sp.In sp.Out) : Prop :=
  ∀ lits, CnfLine.clause kind lits ∈ ls → ClauseHolds sp ls p q lits

/-- The lines of liveness guarantees (assumptions) among the lines, in order. -/
def cubeLines (guarantee : Bool) (ls : List CnfLine) : List (List (List Int)) :=
  ls.filterMap fun | .cubes g cs => if g = guarantee then some cs else none | _ => none

/-- The declared inputs (outputs), in order. -/
def inputLines (ls : List CnfLine) : List Word := ls.filterMap fun | .input x _ _ => some x | _ => none
def outputLines (ls : List CnfLine) : List Word := ls.filterMap fun | .output x _ _ => some x | _ => none

end Slugs.Spec
