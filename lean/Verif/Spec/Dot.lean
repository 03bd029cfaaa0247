import Verif.Spec.Explicit

/-!
The graph of an explicit strategy, in the DOT language of GraphViz.
-/

namespace Slugs.Spec

/-- A node: its number, and as label the values of the variables and the rank. -/
def dotNode (st : PState) : List Char :=
  txt!"\"" ++ decimal st.num ++ txt!"\" [shape=box,label=\"" ++ (st.label.map fun l => if l.2 then '1' else '0') ++ txt!"/" ++ decimal st.rank ++ txt!"\"];\n"

/-- An edge between two numbers. -/
def dotEdge (m n : Nat) : List Char := txt!"\"" ++ decimal m ++ txt!"\" -> \"" ++ decimal n ++ txt!"\";\n"

/-- The graph: the names of the variables in the order in which the labels have their values, a node for each state, and an edge for each successor. -/
def dotGraph (names : List Word) (sts : List PState) : List Char :=
  txt!"digraph {\nnode [shape=tab] \"" ++ (txt!",").intercalate names ++ txt!"\";\n" ++ (sts.map dotNode).flatten ++
    (sts.flatMap fun st => st.succ.map (dotEdge st.num)).flatten ++ txt!"}\n"

/-- The graph without states. -/
def dotEmpty : List Char := txt!"digraph { \"Empty implementation\"; }\n"

end Slugs.Spec
