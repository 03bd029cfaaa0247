import Verif.Model.Structured

/-!
The tool that replaces integer variables in structured specifications, `tools/StructuredSlugsParser/integerVariableSubstitutor.py`.
It uses the parser of the structured slugs compiler (`Model/StructuredParser.lean`).
-/

namespace Slugs.Model.Substitutor

open Slugs.Spec (Word)
open Slugs.Spec.Structured (Term Tok NT Tree)
open Slugs.Model.Structured

/-! ### The lexer -/

/-- `integerVariableSubstitutor.py:39`.  (Other than in the compiler, `LEASTSIGNIFICANTBITOVERWRITES` is not in the list.) -/
def substKeywords : List (List Char) := [txt!"X", txt!"F", txt!"G", txt!"U", txt!"W", txt!"FALSE", txt!"TRUE", txt!"next"]

/-- `tokenize`, `integerVariableSubstitutor.py:26-61`.  The number bounds the length of the string. -/
def substTokenizeAux (booleanAPs : List Word) : Nat → List Char → List Tok
  | 0, _ => []
  | _, [] => []
  | n + 1, c :: cs =>
    if isspace c then substTokenizeAux booleanAPs n cs
    else if wordStart c then
      let w := (c :: cs).takeWhile wordStart
      let r := (c :: cs).dropWhile wordStart
      let w' := w ++ r.takeWhile wordChar
      let r' := r.dropWhile wordChar
      (if w' ∈ substKeywords then ⟨termOf w', w'⟩ else if w' ∈ booleanAPs then ⟨.boolID, w'⟩ else ⟨.numID, w'⟩) ::
        substTokenizeAux booleanAPs n r'
    else if digitChar c then
      ⟨.numeral, (c :: cs).takeWhile digitChar⟩ :: substTokenizeAux booleanAPs n ((c :: cs).dropWhile digitChar)
    else ⟨termOf [c], [c]⟩ :: substTokenizeAux booleanAPs n cs

def substTokenize (booleanAPs : List Word) (s : List Char) : List Tok := substTokenizeAux booleanAPs s.length s

/-! ### Simplification of trees -/

/-- The cases of `clean_tree`, `integerVariableSubstitutor.py:66-132`: those of the compiler, but without the one for
`LeastSignificantBitOverwriteExpression`, which is treated as any other node. -/
def cleanNode' (X : NT) (cs : List Tree) (r : List (Option Tree)) : Option Tree :=
  if X = .LeastSignificantBitOverwriteExpression then (r.mapM id).map (.node X) else cleanNode X cs r

mutual

/-- `clean_tree`, `integerVariableSubstitutor.py:66-132`. -/
def clean' : Tree → Option Tree
  | .leaf t => some (.leaf t)
  | .node X cs => cleanNode' X cs (cleanAll' cs)

def cleanAll' : List Tree → List (Option Tree)
  | [] => []
  | c :: cs => clean' c :: cleanAll' cs

end

/-! ### Replacing -/

/-- The replacements for names of integer variables: the term that is put in its place, and the one that is added on the other side of the comparison
(`replacementDataExpressions`). -/
abbrev Replacements := Word → Option (List Char × List Char)

/-- `"+".join(l)`. -/
def plusJoin : List (List Char) → List Char
  | [] => []
  | [w] => w
  | w :: ws => w ++ '+' :: plusJoin ws

/-- The cases of `treeReplaceExpression`, `integerVariableSubstitutor.py:408-425`, for a node with the results for its children. -/
def replaceNode (X : NT) (r : Option (List Tree × List (List Char))) : Option (Tree × List (List Char)) :=
  match X with
  | .NumberBrackets | .AtomicNumberExpression | .NumberExpression => r.map fun (cs, bs) => (.node X cs, bs)
  | .LeastSignificantBitOverwriteExpression =>
    match r with
    | some ([c], bs) => some (c, bs)
    | _ => none
  | _ => none

mutual

/-- `treeReplaceExpression`, `integerVariableSubstitutor.py:394-425`: the new tree, and the terms to be added on the other side. -/
def replaceExpr (repl : Replacements) : Tree → Option (Tree × List (List Char))
  | .leaf t =>
    if t.kind = .numeral then some (.leaf t, [])
    else if t.kind = .numID then
      match repl t.text with
      | some (a, b) => some (.leaf ⟨.numID, a⟩, [b])
      | none => some (.leaf t, [])
    else none
  | .node X cs => if X = .AdditionOperator then some (.node X cs, []) else replaceNode X (replaceExprAll repl cs)

def replaceExprAll (repl : Replacements) : List Tree → Option (List Tree × List (List Char))
  | [] => some ([], [])
  | c :: cs => (replaceExpr repl c).bind fun (c', b) => (replaceExprAll repl cs).map fun (cs', bs) => (c' :: cs', b ++ bs)

end

/-- `integerVariableSubstitutor.py:434-441`: a side of a comparison with the terms to be added to it. -/
def withAdded (t : Tree) (bs : List (List Char)) : Tree :=
  if bs.length = 0 then t else .node .NumberExpression [t, .node .AdditionOperator [], .leaf ⟨.numID, plusJoin bs⟩]

mutual

/-- `treeReplace`, `integerVariableSubstitutor.py:428-447`.  (Leaves that are reached consist of one string.) -/
def treeReplace (repl : Replacements) : Tree → Option Tree
  | .leaf t => some (.leaf t)
  | .node X cs =>
    if X = .CalculationSubformula then
      match cs with
      | a :: op :: b :: _ =>
        (replaceExpr repl a).bind fun (a', bs1) => (replaceExpr repl b).map fun (b', bs2) => .node X [withAdded a' bs2, op, withAdded b' bs1]
      | _ => none
    else if X = .Assignment then some (.node X cs)
    else (treeReplaceAll repl cs).map (.node X)

def treeReplaceAll (repl : Replacements) : List Tree → Option (List Tree)
  | [] => some []
  | c :: cs => (treeReplace repl c).bind fun c' => (treeReplaceAll repl cs).map fun cs' => c' :: cs'

end

/-! ### Printing -/

/-- `integerVariableSubstitutor.py:316-330`. -/
def opText : Tree → Option (List Char)
  | .node _ (.node .GreaterOperator _ :: _) => some txt!">"
  | .node _ (.node .SmallerOperator _ :: _) => some txt!"<"
  | .node _ (.node .SmallerEqualOperator _ :: _) => some txt!"<="
  | .node _ (.node .GreaterEqualOperator _ :: _) => some txt!">="
  | .node _ (.node .EqualOperator _ :: _) => some txt!"="
  | .node _ (.node .UnequalOperator _ :: _) => some txt!"!="
  | _ => none

/-- `op.join(["("+a+")" for a in l])`. -/
def bracketJoin (op : List Char) : List (List Char) → List Char
  | [] => []
  | [w] => '(' :: w ++ txt!")"
  | w :: ws => '(' :: w ++ txt!")" ++ op ++ bracketJoin op ws

/-- The cases of `translateTreeToStructuredSlugsLine`, `integerVariableSubstitutor.py:279-354`, for a tree with children `cs`; `r isPrimed` are the results for the
children. -/
def printNode (X : NT) (cs : List Tree) (r : Bool → List (Option (List Char))) (isPrimed : Bool) : Option (List Char) :=
  let at' (p : Bool) (i : Nat) : Option (List Char) := ((r p)[i]?).join
  match X with
  | .Formula => if cs.length = 1 then at' isPrimed 0 else none
  | .Biimplication =>
    (at' isPrimed 0).bind fun b1 => (at' isPrimed 1).map fun b2 => txt!"((" ++ b1 ++ txt!") <-> (" ++ b2 ++ txt!"))"
  | .Implication =>
    (at' isPrimed 0).bind fun b1 => (at' isPrimed 1).map fun b2 => txt!"((" ++ b1 ++ txt!") -> (" ++ b2 ++ txt!"))"
  | .Conjunction => ((r isPrimed).mapM id).map fun ws => '(' :: bracketJoin txt!"&" ws ++ txt!")"
  | .Disjunction => ((r isPrimed).mapM id).map fun ws => '(' :: bracketJoin txt!"|" ws ++ txt!")"
  | .UnaryFormula =>
    match cs with
    | .node .NotOperator _ :: _ => (at' isPrimed 1).map fun b => txt!"! " ++ b
    | .node .NextOperator _ :: _ => if isPrimed then none else at' true 1
    | _ => none
  | .Assignment =>
    match cs with
    | .leaf t :: _ => if isPrimed then if '\'' ∈ t.text then none else some (t.text ++ txt!"'") else some t.text
    | _ => none
  | .CalculationSubformula =>
    match cs with
    | [_, op, _] =>
      (at' isPrimed 0).bind fun part1 => (at' isPrimed 2).bind fun part2 => (opText op).map fun o => part1 ++ o ++ part2
    | _ => none
  | .NumberExpression =>
    match cs with
    | _ :: .node .AdditionOperator _ :: _ =>
      (at' isPrimed 0).bind fun a => (at' isPrimed 2).map fun b => txt!"((" ++ a ++ txt!")+(" ++ b ++ txt!"))"
    | _ => none
  | _ => none

mutual

/-- `translateTreeToStructuredSlugsLine`, `integerVariableSubstitutor.py:279-354`. -/
def printTree : Tree → Bool → Option (List Char)
  | .leaf t, isPrimed =>
    if t.kind = .TRUE then some txt!"TRUE" else if t.kind = .FALSE then some txt!"FALSE"
    else if t.kind = .numID then if isPrimed then none else some t.text
    else if t.kind = .numeral then some t.text
    else none
  | .node X cs, isPrimed => printNode X cs (printTrees cs) isPrimed

def printTrees : List Tree → Bool → List (Option (List Char))
  | [], _ => []
  | c :: cs, isPrimed => printTree c isPrimed :: printTrees cs isPrimed

end

/-- `parseLTL`, `treeReplace` and `translateTreeToStructuredSlugsLine` for a line, `integerVariableSubstitutor.py:204-224` and
`integerVariableSubstitutor.py:525-528`. -/
def substLine (repl : Replacements) (booleanAPs : List Word) (line : List Char) : Py (List Char) :=
  match parse (substTokenize booleanAPs line) with
  | .error => .exc
  | .running => .loops
  | .tree t =>
    (Py.ofOption (clean' t)).bind fun t' => (Py.ofOption (treeReplace repl (flatten t'))).bind fun t'' => Py.ofOption (printTree t'' false)

/-! ### Files -/

/-- The entries of the file with the replacements: declarations and names (`integerVariableSubstitutor.py:456-466`). -/
inductive Entry where
  | definition (line new : List Char)
  | expression (name new added : List Char)

/-- `integerVariableSubstitutor.py:459-466` for one line. -/
def readEntry (line : List Char) : Option Entry :=
  let line := strip line
  if line.length > 0 ∧ line.head? ≠ some '#' then
    match split txt!"," line with
    | [a, b] => some (.definition a b)
    | [a, b, c] => some (.expression a b c)
    | _ => none
  else none

def readEntries (text : List Char) : List Entry := (pyLines text).filterMap readEntry

/-- `replacementDataExpressions`: the last entry counts. -/
def expressions (es : List Entry) : Replacements := fun x =>
  es.reverse.findSome? fun e => match e with
    | .expression n a b => if n = x then some (a, b) else none
    | .definition _ _ => none

/-- `replacementDataDefinitions`: the last entry counts. -/
def definitions (es : List Entry) (line : List Char) : Option (List Char) :=
  es.reverse.findSome? fun e => match e with
    | .definition a b => if a = line then some b else none
    | .expression _ _ _ => none

/-- The loop of `integerVariableSubstitutor.py:473-487`.  The dictionary of lists of lines is represented by the list of all lines with their sections; a section
that is not known, or none, raises an exception. -/
def readParts : List Char → List (List Char) → Option (List (List Char × List Char))
  | _, [] => some []
  | mode, l :: ls =>
    let line := strip l
    if line = [] then readParts mode ls
    else if line.head? = some '[' then readParts line ls
    else if mode = [] ∧ line.head? = some '#' then readParts mode ls
    else if mode ∈ headers then (readParts mode ls).map ((mode, line) :: ·) else none

/-- The Boolean propositions (`integerVariableSubstitutor.py:500-502`): all lines of the sections with variables in which there is no `:`, and their primed copies. -/
def substBools (lines : List (List Char × List Char)) : List Word :=
  variableTypes.flatMap fun s => (linesOf s lines).flatMap fun line =>
    if ':' ∈ strip line then [] else [strip line, strip line ++ txt!"'"]

/-- `integerVariableSubstitutor.py:503-509`. -/
def substDeclaration (es : List Entry) (line : List Char) : List Char :=
  let line := strip line
  if line.head? = some '#' then line else (definitions es line).getD line

/-- `integerVariableSubstitutor.py:495-510`: what is printed for one section with variables. -/
def substDeclarations (es : List Entry) (lines : List (List Char × List Char)) (s : List Char) : List (List Char) :=
  if (linesOf s lines).length > 0 then [s] ++ (linesOf s lines).map (substDeclaration es) ++ [[]] else []

/-- `integerVariableSubstitutor.py:520-528`: what is printed for one line with a property. -/
def substProperty (es : List Entry) (bools : List Word) (a : List Char) : Py (List Char) :=
  if (strip a).take 1 = txt!"#" then .ok a
  else if isPrefixLine bools (split txt!" " (strip a)) then .ok a
  else substLine (expressions es) bools a

def substLines (es : List Entry) (bools : List Word) : List (List Char) → Py (List (List Char))
  | [] => .ok []
  | l :: ls => (substProperty es bools l).bind fun l' => (substLines es bools ls).bind fun ls' => .ok (l' :: ls')

/-- `integerVariableSubstitutor.py:515-529`. -/
def substProperties (es : List Entry) (bools : List Word) (lines : List (List Char × List Char)) : List (List Char) → Py (List (List Char))
  | [] => .ok []
  | s :: ss =>
    if (linesOf s lines).length > 0 then
      (substLines es bools (linesOf s lines)).bind fun ls =>
        (substProperties es bools lines ss).bind fun rest => .ok ([s] ++ ls ++ [[]] ++ rest)
    else substProperties es bools lines ss

/-- `performReplacement`, `integerVariableSubstitutor.py:453-531`: the text that is printed.  (What has been printed when an exception is raised is not modelled, nor
are errors on opening the files.) -/
def substFile (text replacements : List Char) : Py (List Char) :=
  (Py.ofOption (readParts [] (pyLines text))).bind fun lines =>
    (substProperties (readEntries replacements) (substBools lines) lines propertyTypes).bind fun ps =>
      .ok (printLines (variableTypes.flatMap (substDeclarations (readEntries replacements) lines) ++ ps))

end Slugs.Model.Substitutor
