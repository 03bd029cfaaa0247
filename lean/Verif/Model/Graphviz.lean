import Verif.Model.Decoder

/-!
Model of `tools/explicitStrategyToGraphviz.py`: it reads the text that slugs prints for an explicit strategy, and prints a graph for GraphViz.
-/

namespace Slugs.Model.Graphviz

open Slugs.Model.Structured Slugs.Model.Decoder

/-- `d[k] = v` for a dictionary, given as the list of its entries in the order of insertion. -/
def setItem {V : Type} (k : List Char) (v : V) : List (List Char × V) → List (List Char × V)
  | [] => [(k, v)]
  | e :: d => if e.1 = k then (k, v) :: d else e :: setItem k v d

/-- The variables of lines 8-10 and 20 (`stateNo` is not defined at first). -/
structure State where
  propositions : Option (List (List Char)) := none
  states : List (List Char × List Char × List (List Char)) := []
  transitions : List (List Char × List (List Char)) := []
  stateNo : Option (List Char) := none

/-- Lines 13-34: a line that starts with `State`.  `none`: an exception is raised. -/
def stateLine (line : List Char) (s : State) : Option State :=
  if line.count '<' ≠ 1 then none
  else
    let linePart1 := split [' '] (line.takeWhile (· ≠ '<'))
    let linePart2 := strip (line.dropWhile (· ≠ '<'))
    match linePart1[1]?, linePart1[4]? with
    | some stateNo, some rank =>
      if linePart2.head? = some '<' ∧ linePart2.getLast? = some '>' then
        let parts := (split [','] (linePart2.drop 1).dropLast).map fun a => split [':'] (strip a)
        match parts.mapM (·[1]?) with
        | none => none
        | some theseValues =>
          let thesePropositions := parts.map (·.headD [])
          if s.propositions = none ∨ s.propositions = some thesePropositions then
            some { s with propositions := some thesePropositions, states := setItem stateNo (rank, theseValues) s.states, stateNo := some stateNo }
          else none
      else none
    | _, _ => none

/-- Lines 35-38: a line with successors. -/
def successorsLine (line : List Char) (s : State) : Option State :=
  match s.stateNo with
  | none => none
  | some stateNo => some { s with transitions := setItem stateNo ((split [','] ((strip line).drop 18)).map strip) s.transitions }

/-- Lines 13-38. -/
def readLine (s : State) (line : List Char) : Option State :=
  match (if txt!"State".isPrefixOf line then stateLine line s else some s) with
  | none => none
  | some s => if txt!"With successors : ".isPrefixOf (strip line) then successorsLine line s else some s

/-- `",".join(l)`. -/
def joinCommas : List (List Char) → List Char
  | [] => []
  | [a] => a
  | a :: b :: l => a ++ ',' :: joinCommas (b :: l)

/-- Lines 49-50, for one state. -/
def nodeText (e : List Char × List Char × List (List Char)) : List Char :=
  txt!"\"" ++ e.1 ++ txt!"\" [shape=box,label=\"" ++ e.2.2.flatten ++ txt!"/" ++ e.2.1 ++ txt!"\"];\n"

/-- Lines 51-53, for one state. -/
def edgesText (transitions : List (List Char × List (List Char))) (e : List Char × List Char × List (List Char)) : Option (List Char) :=
  (transitions.lookup e.1).map fun l => (l.map fun b => txt!"\"" ++ e.1 ++ txt!"\" -> \"" ++ b ++ txt!"\";\n").flatten

/-- The text that the program prints; `none` if an exception is raised, what is printed before is not considered then. -/
def graphviz (text : List Char) : Option (List Char) :=
  match (readlines text).foldlM readLine {} with
  | none => none
  | some s =>
    if s.states = [] then some txt!"digraph { \"Empty implementation\"; }\n"
    else
      match s.propositions, s.states.mapM (edgesText s.transitions) with
      | some propositions, some edges =>
        some (txt!"digraph {\nnode [shape=tab] \"" ++ joinCommas propositions ++ txt!"\";\n" ++ (s.states.map nodeText).flatten ++ edges.flatten ++ txt!"}\n")
      | _, _ => none

end Slugs.Model.Graphviz
