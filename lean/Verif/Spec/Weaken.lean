import Verif.Spec.SpecFile

/-!
Specification: replacing the safety assumptions by clauses.  This file does not refer to the code of slugs.
-/

namespace Slugs.Spec

/-- A clause is a disjunction of literals: names and whether they are negated. -/
abbrev Clause := List (Bool × Word)

/-- A literal as a formula. -/
def literalFml : Bool × Word → Fml
  | (true, x) => .not (.var x)
  | (false, x) => .var x

/-- A clause as a formula. -/
def Clause.fml : Clause → Fml
  | [] => .const false
  | l :: ls => .bin .or (literalFml l) (Clause.fml ls)

/-- The specification with the clauses instead of its safety assumptions. -/
def SpecFile.assuming (sp : SpecFile) (cs : List Clause) : SpecFile := { sp with envTrans := cs.map Clause.fml }

/-- The safety assumptions are at least as strong as the clauses: what they allow is also allowed by the clauses. -/
def SpecFile.Implies (sp : SpecFile) (cs : List Clause) : Prop := ∀ p i, sp.game.safetyEnv p i → (sp.assuming cs).game.safetyEnv p i

/-- All literals of the first clause are literals of the second one. -/
def Clause.Part (c d : Clause) : Prop := ∀ l ∈ c, l ∈ d

end Slugs.Spec
