import Verif.Spec.Interactive
import Verif.Spec.StructuredFile

/-!
# The simulator on the terminal

What `tools/cursesSimulator.py` shows: columns with the values of the integer variables and propositions, and what these columns should be.
-/

namespace Slugs.Spec

/-- A line of the table: an integer variable between `lo` and `hi`, given by its bits (the number of the bit, and which of all the propositions of the
specification it is), or a proposition (a variable between 0 and 1 with one bit). -/
structure ShownVar where
  name : List Char
  lo : Int
  hi : Int
  bits : List (Nat × Nat)
  isOutput : Bool
  deriving DecidableEq, Repr

/-- The value of the variable, when all the propositions of the specification have the given values. -/
def ShownVar.valueAt (v : ShownVar) (values : List Bool) : Int :=
  v.lo + (v.bits.map fun ab => if values.getD ab.2 false = true then (2 : Int) ^ ab.1 else 0).sum

/-- The lines of the table stand for `n` propositions: the bits of a variable are numbered from 0, every proposition is one bit of one variable, and the
bits suffice for the bounds of the variable. -/
structure Numbering (n : Nat) (vars : List ShownVar) : Prop where
  numbers : ∀ v ∈ vars, (v.bits.map Prod.fst).Perm (List.range v.bits.length)
  nonempty : ∀ v ∈ vars, v.bits ≠ []
  positions : (vars.flatMap fun v => v.bits.map Prod.snd).Perm (List.range n)
  bounds : ∀ v ∈ vars, v.lo ≤ v.hi ∧ v.hi - v.lo < 2 ^ v.bits.length

/-- A column of the table: the values, the numbers of the liveness assumption and the liveness guarantee, and whether there is a flag. -/
structure Column where
  values : List Int
  goals : Nat × Nat
  flagged : Bool
  deriving DecidableEq, Repr

/-- A first position that the player who wins can start from. -/
def Begins (sp : SpecFile) (real : Bool) (p : Pos sp.In sp.Out) : Prop :=
  sp.game.initEnv p.1 ∧ sp.game.initSys p ∧ if real = true then sp.game.SysWins p else ¬ sp.game.SysWins p

/-- A transition of both players in which the player who wins follows the strategy `S`; a number goes to the next one only if the
transition satisfies the property with this number. -/
def Moves (sp : SpecFile) (real : Bool) (S : Nat → Pos sp.In sp.Out → Pos sp.In sp.Out → Prop) (g g' : Nat × Nat) (s t : Pos sp.In sp.Out) : Prop :=
  sp.game.safetyEnv s t.1 ∧ sp.game.safetySys s t ∧ S (if real = true then g.2 else g.1) s t ∧
    (g'.1 = g.1 ∨ sp.Fulfils g.1 s t ∧ g'.1 = (g.1 + 1) % sp.hopes) ∧ (g'.2 = g.2 ∨ sp.Reaches g.2 s t ∧ g'.2 = (g.2 + 1) % sp.goals)

/-- The columns without flags show a play. -/
def ShowsPlay (sp : SpecFile) (real : Bool) (S : Nat → Pos sp.In sp.Out → Pos sp.In sp.Out → Prop) (vars : List ShownVar) (cols : List Column) : Prop :=
  ∃ p : Nat → Pos sp.In sp.Out, ∀ i c, cols[i]? = some c → c.flagged = false →
    c.values = vars.map (fun v => v.valueAt (bitsOf sp (p i))) ∧ (i = 0 → c.goals = (0, 0) ∧ Begins sp real (p 0)) ∧
    ∀ j b, i = j + 1 → cols[j]? = some b → Moves sp real S b.goals c.goals (p j) (p i)

/-- The number that has been typed. -/
def typedNumber (ds : List (Fin 10)) : Nat := ds.foldl (fun a d => 10 * a + d.val) 0

/-! ### The propositions of a compiled file -/

/-- The names of the propositions for a variable in a compiled file: bit number `k` of `x` is called `x@k`, with the bounds after the number of the first bit. -/
def propNames (d : Structured.Decl) : List (List Char) :=
  match d.range with
  | none => [d.name]
  | some (lo, hi) => (List.range (Structured.bitsFor (hi - lo))).map fun k =>
      d.name ++ '@' :: (decimal k ++ if k = 0 then '.' :: (decimal lo.toNat ++ '.' :: decimal hi.toNat) else [])

/-- The lines of the table for the variables, if their propositions have the numbers from `s` on (a variable that can only have one value has no propositions). -/
def linesOf (isOutput : Bool) : Nat → List Structured.Decl → List ShownVar
  | _, [] => []
  | s, d :: ds =>
    (match d.range with
    | none => [⟨d.name, 0, 1, [(0, s)], isOutput⟩]
    | some (lo, hi) => if lo = hi then [] else [⟨d.name, lo, hi, (List.range (Structured.bitsFor (hi - lo))).map fun k => (k, s + k), isOutput⟩])
    ++ linesOf isOutput (s + (propNames d).length) ds

end Slugs.Spec
