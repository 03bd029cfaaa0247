import Verif.Spec.SpecFile

/-! What `--analyzeAssumptions` is about: names of constraints, leaving out an assumption, and how quickly the system can reach its goals. -/

namespace Slugs.Spec

/-- The items of a file with their names.  A comment that starts with `##` names the next item; an unnamed item has the empty name.  `cur` is the
open section, `name` the name given to the next item. -/
def namedItems : Option Section → List Char → List (List Char) → List (Section × List Char)
  | _, _, [] => []
  | cur, name, l :: ls =>
    if (trim l).take 2 = ['#', '#'] then namedItems cur (trim ((trim l).drop 2)) ls
    else if trim l = [] ∨ (trim l).head? = some '#' then namedItems cur name ls
    else if (trim l).head? = some '[' then namedItems ((headerOf (trim l)).or cur) name ls
    else cur.toList.map (fun s => (s, name)) ++ namedItems cur [] ls

/-- The names of the items of a section, in order; the `k`-th item (counted from 1) is called `default k` if it has no name. -/
def namesIn (s : Section) (default : List Char) (text : List Char) : List (List Char) :=
  (((namedItems none [] (splitLines text)).filter (fun p => p.1 = s)).zipIdx 1).map fun p =>
    if p.1.2 = [] then default ++ Nat.toDigits 10 p.2 else p.1.2

/-- The specification without its `i`-th safety assumption. -/
def SpecFile.dropSafety (sp : SpecFile) (i : Nat) : SpecFile := { sp with envTrans := sp.envTrans.eraseIdx i }

/-- The specification without its `i`-th liveness assumption. -/
def SpecFile.dropLiveness (sp : SpecFile) (i : Nat) : SpecFile := { sp with envLiveness := sp.envLiveness.eraseIdx i }

/-- The specification without all its safety assumptions. -/
def SpecFile.dropAllSafety (sp : SpecFile) : SpecFile := { sp with envTrans := [] }

variable {I O : Type}

/-- Positions from which the system can force a visit to the goal `b` followed by a position in `W` within `k` stages.  In a stage, the system can wait
in some set `X` of positions as long as one liveness assumption, chosen at the start of the stage, is not seen. -/
def Game.Within (g : Game I O) (W : Pos I O → Prop) (b : Pos I O → Pos I O → Prop) : Nat → Pos I O → Prop
  | 0, _ => False
  | k + 1, s => g.Within W b k s ∨ ∃ a ∈ g.assumptions, ∃ X : Pos I O → Prop, X s ∧
      ∀ p, X p → ∀ i, g.safetyEnv p i → ∃ o, g.safetySys p (i, o) ∧
        ((b p (i, o) ∧ W (i, o)) ∨ g.Within W b k (i, o) ∨ (X (i, o) ∧ ¬ a p (i, o)))

/-- A missing list of liveness constraints is the same as a list with the constraint `true`. -/
def Game.padded (g : Game I O) : Game I O :=
  { g with
    assumptions := match g.assumptions with | [] => [fun _ _ => True] | l => l
    guarantees := match g.guarantees with | [] => [fun _ _ => True] | l => l }

/-- Some position is within fewer stages of the goal in `g` than in `g'`. -/
def Game.QuickerThan (g g' : Game I O) (b : Pos I O → Pos I O → Prop) : Prop :=
  ∃ k s, g.Within g.SysWins b k s ∧ ¬ g'.Within g'.SysWins b k s

end Slugs.Spec
