import Verif.Model.LtlParser
import Verif.Model.Aiger

/-!
Model of `tools/translateFromLTLMopLTLFormatToSlugsFormat.py` and `tools/translateFromRatsyFormatToSlugsFormat.py`, two Python 2 programs that share their first 200 lines.  Not
modelled: what has been printed when an exception is raised, error messages, the limit on recursion, and errors on opening files.  Strings are lists of characters instead of bytes;
characters other than those of ASCII are no symbols of formulas in either case.
-/

namespace Slugs.Model.LtlText

open Slugs.Spec (Word Section trim)
open Slugs.Spec.LtlText (Term Tok NT Tree Kind)
open Slugs.Model.Structured (split join)

/-! ### The lexer -/

/-- `[a-zA-Z0-9_.]`, `translateFromLTLMopLTLFormatToSlugsFormat.py:46`. -/
def idChar (c : Char) : Bool :=
  ('a' ≤ c && c ≤ 'z') || ('A' ≤ c && c ≤ 'Z') || ('0' ≤ c && c ≤ '9') || c == '_' || c == '.'

/-- The symbol of the tables of the parser that a string of one character stands for. -/
def termOf (c : Char) : Term :=
  if c = '!' then .bang else if c = '&' then .amp else if c = '(' then .lpar else if c = ')' then .rpar else if c = '*' then .star
  else if c = '+' then .plus else if c = '-' then .minus else if c = '/' then .slash else if c = '0' then .zero else if c = '1' then .one
  else if c = ';' then .semi else if c = '<' then .less else if c = '=' then .equal else if c = '>' then .greater else if c = 'F' then .F
  else if c = 'G' then .G else if c = 'U' then .U else if c = 'W' then .W else if c = 'X' then .X else if c = '[' then .lbrack
  else if c = '\\' then .backslash else if c = ']' then .rbrack else if c = '^' then .caret else if c = '|' then .bar else if c = '~' then .tilde
  else .other

/-- `tokenize`, `:22-63`.  The number bounds the length of the string. -/
def tokenizeAux : Nat → List Char → List Tok
  | 0, _ => []
  | _, [] => []
  | n + 1, c :: cs =>
    if Slugs.Spec.isSpace c then tokenizeAux n cs
    else if txt!"FALSE".isPrefixOf (c :: cs) then ⟨.FALSE, txt!"FALSE"⟩ :: tokenizeAux n ((c :: cs).drop 5)
    else if txt!"TRUE".isPrefixOf (c :: cs) then ⟨.TRUE, txt!"TRUE"⟩ :: tokenizeAux n ((c :: cs).drop 4)
    else if txt!"next".isPrefixOf (c :: cs) then ⟨.next, txt!"next"⟩ :: tokenizeAux n ((c :: cs).drop 4)
    else if idChar c then
      let m := (c :: cs).takeWhile idChar
      (if m.length = 1 ∧ c ∈ ['X', 'F', 'G', 'U', 'W', '0', '1'] then ⟨termOf c, [c]⟩ else ⟨.id, m⟩) :: tokenizeAux n ((c :: cs).dropWhile idChar)
    else ⟨termOf c, [c]⟩ :: tokenizeAux n cs

def tokenize (s : List Char) : List Tok := tokenizeAux s.length s

/-! ### Simplification of trees -/

/-- The cases of `clean_tree`, `:68-123`, for a tree with children `cs`; `r` are the results for the children (of which only the ones used count). -/
def cleanNode (X : NT) (cs : List Tree) (r : List (Option Tree)) : Option Tree :=
  let at' (i : Nat) : Option Tree := (r[i]?).join
  match X with
  | .Brackets => at' 1
  | .Implication | .Conjunction | .Biimplication | .Disjunction | .Xor =>
    if cs.length = 1 then at' 0 else do return .node X [← at' 0, ← at' 2]
  | .BinaryTemporalFormula => if cs.length = 1 then at' 0 else do return .node X [← at' 0, ← at' 1, ← at' 2]
  | .UnaryFormula => if cs.length = 1 then at' 0 else do return .node X [← at' 0, ← at' 1]
  | .AtomicFormula => if cs.length = 1 then at' 0 else none
  | .BinaryTemporalOperator | .UnaryTemporalOperator => at' 0
  | .Assignment => some (.node X cs)
  | _ => (r.mapM id).map (.node X)

mutual

/-- `clean_tree`, `:68-123`.  (The string that replaces the first child of an `Assignment` is represented by that child.) -/
def clean : Tree → Option Tree
  | .leaf t => some (.leaf t)
  | .node X cs => cleanNode X cs (cleanAll cs)

def cleanAll : List Tree → List (Option Tree)
  | [] => []
  | c :: cs => clean c :: cleanAll cs

end

/-- `:137-165`: the children of children with the same label are lifted. -/
def splice (X : NT) : List Tree → List Tree
  | [] => []
  | .node Y ds :: cs => if Y = X then ds ++ splice X cs else .node Y ds :: splice X cs
  | .leaf t :: cs => .leaf t :: splice X cs

def flattenNode (X : NT) (cs : List Tree) : Tree :=
  match X with
  | .Conjunction | .Disjunction | .Xor => .node X (splice X cs)
  | _ => .node X cs

mutual

/-- `flatten_as_much_as_possible`, `:125-168`. -/
def flatten : Tree → Tree
  | .leaf t => .leaf t
  | .node X cs => flattenNode X (flattenAll cs)

def flattenAll : List Tree → List Tree
  | [] => []
  | c :: cs => flatten c :: flattenAll cs

end

/-- `parseLTL`, `:175-199`; `none` is an exception. -/
def parseLTL (ltlTxt : List Char) : Option Tree :=
  match parse (tokenize ltlTxt) with
  | .tree t => (clean t).map flatten
  | _ => none

/-! ### Formulas about one step -/

/-- How an `Assignment` is translated: its name, what follows the name in the tree, and whether next values are meant. -/
abbrev Atoms := Word → List Tree → Bool → Option (List Word)

/-- `translateFromLTLMopLTLFormatToSlugsFormat.py:290-297`. -/
def ltlmopAtom : Atoms := fun var _ isPrimed =>
  if var[1]? = some '.' then some [if isPrimed then var.drop 2 ++ txt!"'" else var.drop 2] else none

/-- `translateFromRatsyFormatToSlugsFormat.py:297-308`. -/
def ratsyAtom : Atoms := fun var rest isPrimed =>
  let var := if isPrimed then var ++ txt!"'" else var
  match rest with
  | [_, .leaf v] => if v.kind = .zero then some [txt!"!", var] else if v.kind = .one then some [var] else none
  | _ => none

/-- The loops `:275-278` and `:280-283`: `op` is written before the two formulas it combines. -/
def foldOp (op : Word) : List (Option (List Word)) → Option (List Word)
  | [] => none
  | r :: rs => rs.foldl (fun ret a => ret.bind fun ret => a.map fun a => op :: ret ++ a) r

mutual

/-- `parseSimpleFormula`, `translateFromLTLMopLTLFormatToSlugsFormat.py:265-305`, `translateFromRatsyFormatToSlugsFormat.py:272-316`; `none` is an exception. -/
def simple (atoms : Atoms) : Tree → Bool → Option (List Word)
  | .leaf t, _ => if t.kind = .TRUE then some [txt!"1"] else if t.kind = .FALSE then some [txt!"0"] else none
  | .node .Biimplication cs, isPrimed =>
    match simpleAll atoms cs isPrimed with
    | some b1 :: some b2 :: _ => some ([txt!"|", txt!"&", txt!"!"] ++ b1 ++ [txt!"!"] ++ b2 ++ [txt!"&"] ++ b1 ++ b2)
    | _ => none
  | .node .Implication cs, isPrimed =>
    match simpleAll atoms cs isPrimed with
    | some b1 :: some b2 :: _ => some ([txt!"|", txt!"!"] ++ b1 ++ b2)
    | _ => none
  | .node .Conjunction cs, isPrimed => foldOp txt!"&" (simpleAll atoms cs isPrimed)
  | .node .Disjunction cs, isPrimed => foldOp txt!"|" (simpleAll atoms cs isPrimed)
  | .node .UnaryFormula (.node op _ :: c :: _), isPrimed =>
    match op with
    | .NotOperator => (simple atoms c isPrimed).map (txt!"!" :: ·)
    | .NextOperator => if isPrimed then none else simple atoms c true
    | _ => none
  | .node .Assignment (.leaf t :: rest), isPrimed => atoms t.text rest isPrimed
  | _, _ => none

def simpleAll (atoms : Atoms) : List Tree → Bool → List (Option (List Word))
  | [], _ => []
  | c :: cs, isPrimed => simple atoms c isPrimed :: simpleAll atoms cs isPrimed

end

/-! ### Property sets -/

/-- `translateFromLTLMopLTLFormatToSlugsFormat.py:311-316`, `translateFromRatsyFormatToSlugsFormat.py:331-336`. -/
def conjunctsOf : Tree → Option (List Tree)
  | .node .Formula (.node .Conjunction cs :: _) => some cs
  | .node .Formula (t :: _) => some [t]
  | _ => none

/-- `:323-337` and `:338-358`, for one conjunct. -/
def classify (atoms : Atoms) (startWithNext : Bool) : Tree → Option (Kind × List Word)
  | .node .UnaryFormula (.node .GloballyOperator _ :: rest :: _) =>
    match rest with
    | .node .UnaryFormula (.node .FinallyOperator _ :: r :: _) => (simple atoms r startWithNext).map (Kind.liveness, ·)
    | rest => (simple atoms rest false).map (Kind.safety, ·)
  | c => (simple atoms c false).map (Kind.init, ·)

/-- `:309-337` and `:319-358`: the properties of a list of formulas, in order. -/
def propertiesOf (atoms : Atoms) (startWithNext : Bool) (trees : List Tree) : Option (List (Kind × List Word)) := do
  let cs ← trees.mapM conjunctsOf
  cs.flatten.mapM (classify atoms startWithNext)

/-- The lines of one kind, e.g. `:341-342`. -/
def linesOf (k : Kind) (ps : List (Kind × List Word)) : List (List Char) := (ps.filter fun p => p.1 = k).map fun p => join p.2

/-- A section of the output, e.g. `:340-343`. -/
def sectionText (header : List Char) (ls : List (List Char)) : List Char :=
  header ++ txt!"\n" ++ ls.flatMap (· ++ txt!"\n") ++ txt!"\n"

/-- `translateFromLTLMopLTLFormatToSlugsFormat.py:244-258`, `translateFromRatsyFormatToSlugsFormat.py:250-266`: the output for given variables, assumptions and guarantees. -/
def outputText (atoms : Atoms) (inputBits outputBits : List Word) (assumptions guarantees : List Tree) : Option (List Char) := do
  let env ← propertiesOf atoms false assumptions
  let sys ← propertiesOf atoms true guarantees
  some (sectionText txt!"[INPUT]" inputBits ++ sectionText txt!"[OUTPUT]" outputBits ++
    sectionText txt!"[ENV_TRANS]" (linesOf .safety env) ++ sectionText txt!"[ENV_LIVENESS]" (linesOf .liveness env) ++ sectionText txt!"[ENV_INIT]" (linesOf .init env) ++
    sectionText txt!"[SYS_TRANS]" (linesOf .safety sys) ++ sectionText txt!"[SYS_LIVENESS]" (linesOf .liveness sys) ++ sectionText txt!"[SYS_INIT]" (linesOf .init sys))

/-! ### The translator from LTLMop -/

/-- The loop over the lines of the LTL file, `translateFromLTLMopLTLFormatToSlugsFormat.py:207-217`: the assumptions and the guarantees. -/
def ltlFile : Nat → List Char → List Char → List (List Char) → List Char × List Char
  | _, assumptions, guarantees, [] => (assumptions, guarantees)
  | mode, assumptions, guarantees, l :: ls =>
    let line := trim l
    if line = txt!"LTLSPEC -- Assumptions" then ltlFile 1 assumptions guarantees ls
    else if line = txt!"LTLSPEC -- Guarantees" then ltlFile 2 assumptions guarantees ls
    else if mode = 1 then ltlFile mode (assumptions ++ txt!" " ++ line) guarantees ls
    else if mode = 2 then ltlFile mode assumptions (guarantees ++ txt!" " ++ line) ls
    else ltlFile mode assumptions guarantees ls

/-- `s.find(sep)`; `none` is -1. -/
def find (sep : List Char) : List Char → Option Nat
  | [] => if sep = [] then some 0 else none
  | c :: cs => if sep.isPrefixOf (c :: cs) then some 0 else (find sep cs).map (· + 1)

/-- The loop over the lines of the SMV file, `:228-239`: the inputs and the outputs. -/
def smvFile : Nat → List Word → List Word → List (List Char) → List Word × List Word
  | _, inputBits, outputBits, [] => (inputBits, outputBits)
  | mode, inputBits, outputBits, l :: ls =>
    let line := trim l
    if txt!"MODULE env".isPrefixOf line then smvFile 1 inputBits outputBits ls
    else if txt!"MODULE sys".isPrefixOf line then smvFile 2 inputBits outputBits ls
    else if 0 < (find txt!" : " line).getD 0 then
      if mode = 1 then smvFile mode (inputBits ++ [(split txt!" : " line).headD []]) outputBits ls
      else if mode = 2 then smvFile mode inputBits (outputBits ++ [(split txt!" : " line).headD []]) ls
      else smvFile mode inputBits outputBits ls
    else smvFile mode inputBits outputBits ls

/-- `performConversion`, `translateFromLTLMopLTLFormatToSlugsFormat.py:201-258`, on the texts of the two files; `none` is an exception. -/
def fromLtlmop (smv ltl : List Char) : Option (List Char) := do
  let (assumptions, guarantees) := ltlFile 0 [] [] (Aiger.rawLines ltl)
  let assumptionTree ← parseLTL assumptions
  let guaranteeTree ← parseLTL guarantees
  let (inputBits, outputBits) := smvFile 0 [] [] (Aiger.rawLines smv)
  outputText ltlmopAtom inputBits outputBits [assumptionTree] [guaranteeTree]

/-! ### The translator from RATSY -/

/-- The section that a line starts, `translateFromRatsyFormatToSlugsFormat.py:214-229`. -/
def ratsySection (line : List Char) : Option Section :=
  if line = txt!"[INPUT_VARIABLES]" then some .input else if line = txt!"[OUTPUT_VARIABLES]" then some .output
  else if line = txt!"[ENV_INITIAL]" then some .envInit else if line = txt!"[SYS_INITIAL]" then some .sysInit
  else if line = txt!"[ENV_TRANSITIONS]" then some .envTrans else if line = txt!"[SYS_TRANSITIONS]" then some .sysTrans
  else if line = txt!"[ENV_FAIRNESS]" then some .envLiveness else if line = txt!"[SYS_FAIRNESS]" then some .sysLiveness
  else none

/-- The loop over the lines, `:208-237`; `strings` is `stringsOfType`, and `none` is an exception. -/
def ratsyFile : Option Section → (Section → List Char) → List (List Char) → Option (Section → List Char)
  | _, strings, [] => some strings
  | mode, strings, l :: ls =>
    let line := trim l
    if line.head? = some '#' then ratsyFile mode strings ls
    else if line = [] then ratsyFile mode strings ls
    else
      match ratsySection line with
      | some s => ratsyFile (some s) strings ls
      | none =>
        if line.head? = some '[' then none
        else
          match mode with
          | none => none
          | some s => ratsyFile mode (fun t => if t = s then strings t ++ line else strings t) ls

/-- `[a.strip() for a in s.split(";")]`. -/
def pieces (s : List Char) : List (List Char) := (split txt!";" s).map trim

/-- `[parseLTL(a+";") for a in properties if a!=""]`, `:259-260`. -/
def parseAll (properties : List (List Char)) : Option (List Tree) := (properties.filter (· ≠ [])).mapM fun a => parseLTL (a ++ txt!";")

/-- `performConversion`, `translateFromRatsyFormatToSlugsFormat.py:201-266`, on the text of the file; `none` is an exception. -/
def fromRatsy (text : List Char) : Option (List Char) := do
  let strings ← ratsyFile none (fun _ => []) (Aiger.rawLines text)
  let assumptionProperties ← parseAll (pieces (strings .envInit) ++ pieces (strings .envTrans) ++ pieces (strings .envLiveness))
  let guaranteeProperties ← parseAll (pieces (strings .sysInit) ++ pieces (strings .sysTrans) ++ pieces (strings .sysLiveness))
  outputText ratsyAtom (pieces (strings .input)) (pieces (strings .output)) assumptionProperties guaranteeProperties

end Slugs.Model.LtlText
