import Verif.Model.StructuredParser

/-!
The structured slugs compiler, `tools/StructuredSlugsParser/compiler.py`.  Python strings are lists of characters.
-/

namespace Slugs.Model.Structured

open Slugs.Spec (Word)
open Slugs.Spec.Structured (Term Tok NT Tree)

/-- The outcome of a Python function: a value, an exception, or an endless loop. -/
inductive Py (A : Type) where
  | ok (a : A)
  | exc
  | loops
  deriving DecidableEq

def Py.bind {A B : Type} : Py A → (A → Py B) → Py B
  | .ok a, f => f a
  | .exc, _ => .exc
  | .loops, _ => .loops

instance : Monad Py where
  pure := .ok
  bind := Py.bind

def Py.ofOption {A : Type} : Option A → Py A
  | some a => .ok a
  | none => .exc

/-! ### Strings -/

/-- `str.isspace` for one character. -/
def isspace (c : Char) : Bool :=
  let n := c.toNat
  (9 ≤ n && n ≤ 13) || (28 ≤ n && n ≤ 32) || n == 133 || n == 160 || n == 5760 || (8192 ≤ n && n ≤ 8202) || n == 8232 || n == 8233 || n == 8239 ||
    n == 8287 || n == 12288

/-- `str.strip`. -/
def strip (s : List Char) : List Char := ((s.dropWhile isspace).reverse.dropWhile isspace).reverse

/-- `" ".join(l)`. -/
def join : List (List Char) → List Char
  | [] => []
  | [w] => w
  | w :: ws => w ++ ' ' :: join ws

/-- `s.split(sep)`, the pieces between the occurrences of the separator (found from left to right); `cur` is the current piece, reversed, and `skip` the number of
characters of a separator still to be skipped. -/
def splitAux (sep : List Char) : Nat → List Char → List Char → List (List Char)
  | _, cur, [] => [cur.reverse]
  | k + 1, cur, _ :: cs => splitAux sep k cur cs
  | 0, cur, c :: cs => if sep.isPrefixOf (c :: cs) then cur.reverse :: splitAux sep (sep.length - 1) [] cs else splitAux sep 0 (c :: cur) cs

def split (sep s : List Char) : List (List Char) := splitAux sep 0 [] s

/-- `str(n)`. -/
def strNat (n : Nat) : List Char := Nat.toDigits 10 n

def strInt : Int → List Char
  | .ofNat n => strNat n
  | .negSucc n => '-' :: strNat (n + 1)

def digitVal (c : Char) : Nat := c.toNat - 48

/-- The digits of a number, with single underscores between digits. -/
def digitsAux : Nat → Bool → List Char → Option Nat
  | n, last, [] => if last then some n else none
  | n, last, c :: cs =>
    if '0' ≤ c ∧ c ≤ '9' then digitsAux (10 * n + digitVal c) true cs
    else if c = '_' ∧ last then digitsAux n false cs
    else none

/-- `int(s)`; digits other than 0-9 are not modelled. -/
def toInt (s : List Char) : Option Int :=
  match strip s with
  | '-' :: ds => (digitsAux 0 false ds).map fun n => -(n : Int)
  | '+' :: ds => (digitsAux 0 false ds).map fun n => (n : Int)
  | ds => (digitsAux 0 false ds).map fun n => (n : Int)

/-! ### The lexer -/

/-- The symbol of the tables of the parser that a Python string stands for. -/
def termOf (s : List Char) : Term :=
  if s = txt!"!" then .bang else if s = txt!"&" then .amp else if s = txt!"(" then .lpar else if s = txt!")" then .rpar
  else if s = txt!"*" then .star else if s = txt!"+" then .plus else if s = txt!"-" then .minus else if s = txt!"/" then .slash
  else if s = txt!"<" then .less else if s = txt!"=" then .equal else if s = txt!">" then .greater else if s = txt!"F" then .F
  else if s = txt!"FALSE" then .FALSE else if s = txt!"G" then .G else if s = txt!"LEASTSIGNIFICANTBITOVERWRITES" then .LSB
  else if s = txt!"TRUE" then .TRUE else if s = txt!"U" then .U else if s = txt!"W" then .W else if s = txt!"X" then .X
  else if s = txt!"[" then .lbrack else if s = txt!"\\" then .backslash else if s = txt!"]" then .rbrack else if s = txt!"^" then .caret
  else if s = txt!"next" then .next else if s = txt!"|" then .bar else if s = txt!"~" then .tilde else .other

/-- `[a-zA-Z_.\'@]`, `compiler.py:37`. -/
def wordStart (c : Char) : Bool :=
  ('a' ≤ c && c ≤ 'z') || ('A' ≤ c && c ≤ 'Z') || c == '_' || c == '.' || c == '\'' || c == '@'

/-- `[a-zA-Z0-9_.\'@]`, `compiler.py:37`. -/
def wordChar (c : Char) : Bool :=
  ('a' ≤ c && c ≤ 'z') || ('A' ≤ c && c ≤ 'Z') || ('0' ≤ c && c ≤ '9') || c == '_' || c == '.' || c == '\'' || c == '@'

/-- `[0-9]`, `compiler.py:51`. -/
def digitChar (c : Char) : Bool := '0' ≤ c && c ≤ '9'

/-- `compiler.py:40`. -/
def keywords : List (List Char) := [txt!"X", txt!"F", txt!"G", txt!"U", txt!"W", txt!"FALSE", txt!"TRUE", txt!"next",
  txt!"LEASTSIGNIFICANTBITOVERWRITES"]

/-- `tokenize`, `compiler.py:28-61`.  The number bounds the length of the string. -/
def tokenizeAux (booleanAPs : List Word) : Nat → List Char → List Tok
  | 0, _ => []
  | _, [] => []
  | n + 1, c :: cs =>
    if isspace c then tokenizeAux booleanAPs n cs
    else if wordStart c then
      let w := (c :: cs).takeWhile wordStart
      let r := (c :: cs).dropWhile wordStart
      let w' := w ++ r.takeWhile wordChar
      let r' := r.dropWhile wordChar
      (if w' ∈ keywords then ⟨termOf w', w'⟩ else if w' ∈ booleanAPs then ⟨.boolID, w'⟩ else ⟨.numID, w'⟩) :: tokenizeAux booleanAPs n r'
    else if digitChar c then
      ⟨.numeral, (c :: cs).takeWhile digitChar⟩ :: tokenizeAux booleanAPs n ((c :: cs).dropWhile digitChar)
    else ⟨termOf [c], [c]⟩ :: tokenizeAux booleanAPs n cs

def tokenize (booleanAPs : List Word) (s : List Char) : List Tok := tokenizeAux booleanAPs s.length s

/-! ### Simplification of trees -/

/-- The cases of `clean_tree`, `compiler.py:66-133`, for a tree with children `cs`; `r` are the results for the children (of which only the ones used count). -/
def cleanNode (X : NT) (cs : List Tree) (r : List (Option Tree)) : Option Tree :=
  let at' (i : Nat) : Option Tree := (r[i]?).join
  match X with
  | .Brackets => at' 1
  | .Implication | .Conjunction | .Biimplication | .Disjunction | .Xor =>
    if cs.length = 1 then at' 0 else do return .node X [← at' 0, ← at' 2]
  | .LeastSignificantBitOverwriteExpression =>
    if cs.length = 1 then at' 0 else (r.mapM id).map (.node X)
  | .BinaryTemporalFormula | .MultiplicativeNumber | .NumberExpression =>
    if cs.length = 1 then at' 0 else do return .node X [← at' 0, ← at' 1, ← at' 2]
  | .UnaryFormula => if cs.length = 1 then at' 0 else do return .node X [← at' 0, ← at' 1]
  | .BooleanAtomicFormula | .AtomicNumberExpression | .AtomicFormula => if cs.length = 1 then at' 0 else none
  | .BinaryTemporalOperator | .UnaryTemporalOperator => at' 0
  | .Assignment => some (.node X cs)
  | _ => (r.mapM id).map (.node X)

mutual

/-- `clean_tree`, `compiler.py:66-133`.  (The string that replaces the child of an `Assignment` is represented by that child.) -/
def clean : Tree → Option Tree
  | .leaf t => some (.leaf t)
  | .node X cs => cleanNode X cs (cleanAll cs)

def cleanAll : List Tree → List (Option Tree)
  | [] => []
  | c :: cs => clean c :: cleanAll cs

end

/-- `compiler.py:148-176`: the children of children with the same label are lifted. -/
def splice (X : NT) : List Tree → List Tree
  | [] => []
  | .node Y ds :: cs => if Y = X then ds ++ splice X cs else .node Y ds :: splice X cs
  | .leaf t :: cs => .leaf t :: splice X cs

def flattenNode (X : NT) (cs : List Tree) : Tree :=
  match X with
  | .Conjunction | .Disjunction | .Xor => .node X (splice X cs)
  | _ => .node X cs

mutual

/-- `flatten_as_much_as_possible`, `compiler.py:135-180`. -/
def flatten : Tree → Tree
  | .leaf t => .leaf t
  | .node X cs => flattenNode X (flattenAll cs)

def flattenAll : List Tree → List Tree
  | [] => []
  | c :: cs => flatten c :: flattenAll cs

end

/-! ### Numbers -/

/-- The global dictionaries that the translation uses: `numberAPLimits` and `translatedNames`. -/
structure Names where
  limits : Word → Option (Int × Int)
  bits : Word → Option (List Word)

/-- `apName[len(apName)-1]=="'"`. -/
def endsWithPrime (x : Word) : Bool := x.getLast? == some '\''

mutual

/-- `addMinimumValueToAllVariables`, `compiler.py:320-335`. -/
def addMinimum (nm : Names) : Tree → Option Tree
  | .leaf t =>
    if t.kind = .numID then
      match nm.limits (if endsWithPrime t.text then t.text.dropLast else t.text) with
      | none => none
      | some (minimum, _) =>
        if minimum = 0 then some (.leaf t)
        else some (.node .NumberExpression [.leaf t, .node .AdditionOperator [], .leaf ⟨.numeral, strInt minimum⟩])
    else some (.leaf t)
  | .node X cs => (addMinimumAll nm cs).map (.node X)

def addMinimumAll (nm : Names) : List Tree → Option (List Tree)
  | [] => some []
  | c :: cs => (addMinimum nm c).bind fun c' => (addMinimumAll nm cs).map fun cs' => c' :: cs'

end

/-- The parts of a memory structure, `memoryStructureParts`: each is a list of strings. -/
abbrev Parts := List (List (List Char))

def recallText (i : Nat) : List Char := txt!"? " ++ strNat i

/-- `compiler.py:233-235`. -/
def addJoint : List (List Char × List Char) → Parts → Parts
  | [], mem => mem
  | (a, b) :: l, mem =>
    let mem1 := mem ++ [[txt!"^ ^", a, b, txt!"?", strNat (mem.length - 1)]]
    let mem2 := mem1 ++ [[txt!"| | &", a, b, txt!"& ?", strNat (mem1.length - 2), a, txt!"& ?", strNat (mem1.length - 2), b]]
    addJoint l mem2

/-- `compiler.py:238-240`. -/
def addRest : List (List Char) → Parts → Parts
  | [], mem => mem
  | b :: l, mem =>
    let mem1 := mem ++ [[txt!"^", b, txt!"?", strNat (mem.length - 1)]]
    let mem2 := mem1 ++ [[txt!"&", b, txt!"?", strNat (mem1.length - 2)]]
    addRest l mem2

/-- `compiler.py:230-243`, after the shorter number has been made the first. -/
def addSorted (p1 p2 : List (List Char)) (mem : Parts) : List (List Char) × Parts :=
  match p1, p2 with
  | a :: p1', b :: p2' =>
    let mem1 := mem ++ [[txt!"^", a, b]] ++ [[txt!"&", a, b]]
    let mem2 := addRest (p2'.drop p1'.length) (addJoint (p1'.zip p2') mem1)
    ((List.range p2.length).map (fun i => recallText (i * 2 + mem.length)) ++ [recallText (mem2.length - 1)], mem2)
  | _, _ => (p2, mem)

/-- `compiler.py:224-243`. -/
def addBits (p1 p2 : List (List Char)) (mem : Parts) : List (List Char) × Parts :=
  if p1.length = 0 then (p2, mem)
  else if p2.length = 0 then (p1, mem)
  else if p2.length < p1.length then addSorted p2 p1 mem
  else addSorted p1 p2 mem

/-- The loop of `compiler.py:255-260`.  The first number bounds the number of rounds; for negative numbers the loop does not end. -/
def numeralBits : Nat → Nat → List (List Char)
  | 0, _ => []
  | k + 1, n => if n = 0 then [] else (if n % 2 = 1 then txt!"1" else txt!"0") :: numeralBits k (n / 2)

/-- `compiler.py:252-261`. -/
def numeralOf (s : List Char) : Py (List (List Char)) :=
  match toInt s with
  | none => .exc
  | some (.ofNat n) => .ok (numeralBits (n + 1) n)
  | some (.negSucc _) => .loops

/-- `compiler.py:264-275`. -/
def numIDBits (nm : Names) (isPrimed : Bool) (apName : Word) : Py (List (List Char)) :=
  let primedLocally := endsWithPrime apName
  if primedLocally && isPrimed then .exc
  else
    let name := if primedLocally then apName.dropLast else apName
    match nm.bits name with
    | none => .exc
    | some bs => if !primedLocally && !isPrimed then .ok bs else .ok (bs.map (· ++ txt!"'"))

/-- `recurseCalculationSubformula`, `compiler.py:214-293`. -/
def recurse (nm : Names) (isPrimed : Bool) : Tree → Parts → Py (List (List Char) × Parts)
  | .leaf t, mem =>
    if t.kind = .numeral then (numeralOf t.text).bind fun p => .ok (p, mem)
    else if t.kind = .numID then (numIDBits nm isPrimed t.text).bind fun p => .ok (p, mem)
    else .exc
  | .node .NumberExpression [a, op, b], mem =>
    (recurse nm isPrimed a mem).bind fun (p1, mem1) =>
      (recurse nm isPrimed b mem1).bind fun (p2, mem2) =>
        match op with
        | .node .AdditionOperator _ => .ok (addBits p1 p2 mem2)
        | _ => .exc
  | .node .NumberBrackets [l, a, r], mem =>
    match l, r with
    | .leaf l, .leaf r => if l.kind = .lpar ∧ r.kind = .rpar then recurse nm isPrimed a mem else .exc
    | _, _ => .exc
  | .node .LeastSignificantBitOverwriteExpression (a :: _ :: b :: _), mem =>
    (recurse nm isPrimed a mem).bind fun (p1, mem1) =>
      (recurse nm isPrimed b mem1).bind fun (p2, mem2) =>
        if p1.length < p2.length then .ok (p1 ++ p2.drop p1.length, mem2) else .exc
  | .node _ _, _ => .exc

/-- The loops of `compiler.py:350-356`: strings are put in front. -/
def greaterParts (strict : Bool) (p1 p2 : List (List Char)) : List (List Char) :=
  let start := if strict then [txt!"0"] else [txt!"1"]
  let joint := (p1.zip p2).foldl (fun acc (a, b) => [txt!"|", txt!"&", a, txt!"!", b, txt!"& | !", b, a] ++ acc) start
  let more := (p2.drop p1.length).foldl (fun acc b => [txt!"& !", b] ++ acc) joint
  (p1.drop p2.length).foldl (fun acc a => [txt!"|", a] ++ acc) more

/-- `compiler.py:361-367`. -/
def smallerParts (strict : Bool) (p1 p2 : List (List Char)) : List (List Char) :=
  let start := if strict then [txt!"0"] else [txt!"1"]
  let joint := (p1.zip p2).foldl (fun acc (a, b) => [txt!"|", txt!"& !", a, b, txt!"& |", b, txt!"!", a] ++ acc) start
  let more := (p1.drop p2.length).foldl (fun acc a => [txt!"& !", a] ++ acc) joint
  (p2.drop p1.length).foldl (fun acc b => [txt!"|", b] ++ acc) more

/-- `compiler.py:372-378`. -/
def equalParts (p1 p2 : List (List Char)) : List (List Char) :=
  let joint := (p1.zip p2).foldl (fun acc (a, b) => [txt!"&", txt!"! ^", a, b] ++ acc) [txt!"1"]
  let more := (p1.drop p2.length).foldl (fun acc a => [txt!"& !", a] ++ acc) joint
  (p2.drop p1.length).foldl (fun acc b => [txt!"& !", b] ++ acc) more

/-- The choice of the comparison, `compiler.py:349-385`. -/
def comparison (op : Tree) (p1 p2 : List (List Char)) : Option (List (List Char)) :=
  match op with
  | .node .NumberComparisonOperator (.node .GreaterOperator _ :: _) => some (greaterParts true p1 p2)
  | .node .NumberComparisonOperator (.node .GreaterEqualOperator _ :: _) => some (greaterParts false p1 p2)
  | .node .NumberComparisonOperator (.node .SmallerOperator _ :: _) => some (smallerParts true p1 p2)
  | .node .NumberComparisonOperator (.node .SmallerEqualOperator _ :: _) => some (smallerParts false p1 p2)
  | .node .NumberComparisonOperator (.node .EqualOperator _ :: _) => some (equalParts p1 p2)
  | .node .NumberComparisonOperator (.node .UnequalOperator _ :: _) => some (txt!"!" :: equalParts p1 p2)
  | _ => none

/-- `computeCalculationSubformula`, `compiler.py:340-388`. -/
def calculation (nm : Names) (isPrimed : Bool) (a op b : Tree) : Py (List (List Char)) :=
  (Py.ofOption (addMinimum nm a)).bind fun a' =>
    (recurse nm isPrimed a' []).bind fun (p1, mem1) =>
      (Py.ofOption (addMinimum nm b)).bind fun b' =>
        (recurse nm isPrimed b' mem1).bind fun (p2, mem2) =>
          match comparison op p1 p2 with
          | none => .exc
          | some parts =>
            let mem := mem2 ++ [parts]
            .ok ([txt!"$", strNat mem.length] ++ mem.flatten)

/-! ### Formulas -/

/-- The loop of `compiler.py:408-410` and `compiler.py:413-415`. -/
def foldOp (op : List Char) : List (Py (List (List Char))) → Py (List (List Char))
  | [] => .exc
  | r :: rs => rs.foldl (fun ret a => ret.bind fun x => a.bind fun y => .ok ([op] ++ x ++ y)) r

/-- The cases of `parseSimpleFormula`, `compiler.py:393-440`, for a tree with children `cs`; `r isPrimed` are the results for the children. -/
def simpleNode (nm : Names) (X : NT) (cs : List Tree) (r : Bool → List (Py (List (List Char)))) (isPrimed : Bool) : Py (List (List Char)) :=
  let at' (p : Bool) (i : Nat) : Py (List (List Char)) := ((r p)[i]?).getD .exc
  match X with
  | .Formula => if cs.length = 1 then at' isPrimed 0 else .exc
  | .Biimplication =>
    (at' isPrimed 0).bind fun b1 => (at' isPrimed 1).bind fun b2 =>
      .ok ([txt!"|", txt!"&", txt!"!"] ++ b1 ++ [txt!"!"] ++ b2 ++ [txt!"&"] ++ b1 ++ b2)
  | .Implication => (at' isPrimed 0).bind fun b1 => (at' isPrimed 1).bind fun b2 => .ok ([txt!"|", txt!"!"] ++ b1 ++ b2)
  | .Conjunction => foldOp txt!"&" (r isPrimed)
  | .Disjunction => foldOp txt!"|" (r isPrimed)
  | .UnaryFormula =>
    match cs with
    | .node .NotOperator _ :: _ => (at' isPrimed 1).bind fun b => .ok ([txt!"!"] ++ b)
    | .node .NextOperator _ :: _ => if isPrimed then .exc else at' true 1
    | _ => .exc
  | .Assignment =>
    match cs with
    | .leaf t :: _ => if isPrimed then if '\'' ∈ t.text then .exc else .ok [t.text ++ txt!"'"] else .ok [t.text]
    | _ => .exc
  | .CalculationSubformula =>
    match cs with
    | [a, op, b] => calculation nm isPrimed a op b
    | _ => .exc
  | _ => .exc

mutual

/-- `parseSimpleFormula`, `compiler.py:393-440`. -/
def simple (nm : Names) : Tree → Bool → Py (List (List Char))
  | .leaf t, _ => if t.kind = .TRUE then .ok [txt!"1"] else if t.kind = .FALSE then .ok [txt!"0"] else .exc
  | .node X cs, isPrimed => simpleNode nm X cs (simpleAll nm cs) isPrimed

def simpleAll (nm : Names) : List Tree → Bool → List (Py (List (List Char)))
  | [], _ => []
  | c :: cs, isPrimed => simple nm c isPrimed :: simpleAll nm cs isPrimed

end

/-- `parseLTL` and `translateToSlugsFormat`, `compiler.py:187-210` and `compiler.py:443-446`. -/
def translateLine (nm : Names) (booleanAPs : List Word) (line : List Char) : Py (List Char) :=
  match parse (tokenize booleanAPs line) with
  | .error => .exc
  | .running => .loops
  | .tree t =>
    (Py.ofOption (clean t)).bind fun t' => (simple nm (flatten t') false).bind fun tokens => .ok (join tokens)

/-! ### Files -/

/-- The loop of `isValidRecursiveSlugsProperty`, `compiler.py:460-481`, over the reversed list of tokens. -/
def stackSize (booleanAPs : List Word) : Nat → List (List Char) → Option Nat
  | n, [] => some n
  | n, w :: ws =>
    if w = txt!"|" ∨ w = txt!"&" ∨ w = txt!"^" then if n < 2 then none else stackSize booleanAPs (n - 1) ws
    else if w = txt!"!" then stackSize booleanAPs n ws
    else if w = txt!"1" ∨ w = txt!"0" then stackSize booleanAPs (n + 1) ws
    else
      let w' := if endsWithPrime w then w.dropLast else w
      if w' ∈ booleanAPs then stackSize booleanAPs (n + 1) ws
      else if w' = txt!"0" ∨ w' = txt!"1" then stackSize booleanAPs (n + 1) ws
      else none

/-- `isValidRecursiveSlugsProperty`, `compiler.py:455-481`. -/
def isPrefixLine (booleanAPs : List Word) (tokens : List (List Char)) : Bool :=
  let tokens := tokens.filter (· ≠ [])
  if txt!"$" ∈ tokens then true else stackSize booleanAPs 0 tokens.reverse == some 1

/-- The sections, `compiler.py:489`. -/
def headers : List (List Char) := [txt!"[ENV_TRANS]", txt!"[ENV_INIT]", txt!"[INPUT]", txt!"[OUTPUT]", txt!"[SYS_TRANS]", txt!"[SYS_INIT]",
  txt!"[ENV_LIVENESS]", txt!"[SYS_LIVENESS]", txt!"[OBSERVABLE_INPUT]", txt!"[UNOBSERVABLE_INPUT]", txt!"[CONTROLLABLE_INPUT]"]

/-- The lines of a text file (`readlines`, with universal newlines), without the line ends. -/
def pyLinesAux : List Char → List Char → List (List Char)
  | cur, [] => if cur.isEmpty then [] else [cur.reverse]
  | cur, '\r' :: '\n' :: cs => cur.reverse :: pyLinesAux [] cs
  | cur, c :: cs => if c = '\n' ∨ c = '\r' then cur.reverse :: pyLinesAux [] cs else pyLinesAux (c :: cur) cs

def pyLines (s : List Char) : List (List Char) := pyLinesAux [] s

/-- The loop of `compiler.py:491-502`.  The dictionary of lists of lines is represented by the list of all lines with their sections. -/
def readSections : List Char → List (List Char) → Option (List (List Char × List Char))
  | _, [] => some []
  | mode, l :: ls =>
    let line := strip l
    if line.head? = some '[' then readSections line ls
    else if mode = [] ∧ line.head? = some '#' then readSections mode ls
    else if mode ≠ [] then if mode ∈ headers then (readSections mode ls).map ((mode, line) :: ·) else none
    else readSections mode ls

/-- `lines[s]`. -/
def linesOf (s : List Char) (lines : List (List Char × List Char)) : List (List Char) := (lines.filter fun e => e.1 = s).map Prod.snd

/-- The variables of the main function: Boolean propositions, integer variables with their limits and bits (the last declaration counts), translated
declarations, and the lines that have been added. -/
structure Conv where
  booleanAPs : List Word
  numbers : List (Word × (Int × Int) × List Word)
  io : List (List Char × List Char)
  extra : List (List Char × List Char)

def Conv.names (c : Conv) : Names where
  limits x := (c.numbers.reverse.find? fun e => e.1 = x).map fun e => e.2.1
  bits x := (c.numbers.reverse.find? fun e => e.1 = x).map fun e => e.2.2

/-- The loop of `compiler.py:540-542`; the first number bounds the number of rounds. -/
def nofBitsAux : Nat → Nat → Int → Nat
  | 0, n, _ => n
  | k + 1, n, d => if (2 : Int) ^ n ≤ d then nofBitsAux k (n + 1) d else n

/-- `compiler.py:545`. -/
def bitNames (var : Word) (lo hi : Int) (nofBits : Nat) : List Word :=
  (List.range nofBits).map fun i =>
    var ++ txt!"@" ++ strNat i ++ (if i = 0 then txt!"." ++ strInt lo ++ txt!"." ++ strInt hi else [])

/-- `compiler.py:555-560` and `compiler.py:570-575`. -/
def limitTokens (names : List Word) (limitDiff : Nat) : List (List Char) :=
  (names.zip (List.range names.length)).foldl
    (fun tokens (name, i) => (if 2 ^ i &&& limitDiff ≠ 0 then [txt!"| !", name] else [txt!"& !", name]) ++ tokens) [txt!"0"]

/-- `compiler.py:525-576`: the declaration of an integer var. -/
def declareNumber (thoroughly : Bool) (variableType : List Char) (var : Word) (lo hi : Int) (c : Conv) : Conv :=
  let nofBits := nofBitsAux ((hi - lo).toNat + 1) 0 (hi - lo)
  let bits := bitNames var lo hi nofBits
  let limitDiff := (hi - lo + 1).toNat
  let dest := if (txt!"INPUT]").isSuffixOf variableType then txt!"[ENV" else txt!"[SYS"
  let note := txt!"## Variable limits: " ++ strInt lo ++ txt!"<=" ++ var ++ txt!"<=" ++ strInt hi
  let note' := txt!"## Variable limits: " ++ strInt lo ++ txt!"<=" ++ var ++ txt!"'<=" ++ strInt hi
  { booleanAPs := c.booleanAPs ++ bits
    numbers := c.numbers ++ [(var, (lo, hi), bits)]
    io := c.io ++ bits.map fun b => (variableType, b)
    extra := c.extra ++
      if 2 ^ nofBits ≠ limitDiff then
        [(dest ++ txt!"_INIT]", note), (dest ++ txt!"_INIT]", join (limitTokens bits limitDiff))] ++
        (if thoroughly then [(dest ++ txt!"_TRANS]", note), (dest ++ txt!"_TRANS]", join (limitTokens bits limitDiff))] else []) ++
        [(dest ++ txt!"_TRANS]", note'), (dest ++ txt!"_TRANS]", join (limitTokens (bits.map (· ++ txt!"'")) limitDiff))]
      else [] }

/-- The body of the loop of `compiler.py:512-583`: one line of a section that declares variables. -/
def declare (thoroughly : Bool) (variableType line : List Char) (c : Conv) : Option Conv :=
  if line = [] ∨ line.head? = some '#' then some { c with io := c.io ++ [(variableType, strip line)] }
  else if '\'' ∈ line then none
  else if '@' ∈ line then none
  else if ':' ∈ line then
    match (split txt!":" line).map strip with
    | [var, range] =>
      match split txt!"..." range with
      | [from', to'] =>
        match toInt from', toInt to' with
        | some lo, some hi => if lo > hi then none else some (declareNumber thoroughly variableType var lo hi c)
        | _, _ => none
      | _ => none
    | _ => none
  else
    let name := strip line
    some { c with booleanAPs := c.booleanAPs ++ [name, name ++ txt!"'"], io := c.io ++ [(variableType, name)] }

def declareLines (thoroughly : Bool) (variableType : List Char) : List (List Char) → Conv → Option Conv
  | [], c => some c
  | l :: ls, c => (declare thoroughly variableType l c).bind (declareLines thoroughly variableType ls)

/-- `compiler.py:511`. -/
def variableTypes : List (List Char) := [txt!"[INPUT]", txt!"[OUTPUT]", txt!"[OBSERVABLE_INPUT]", txt!"[UNOBSERVABLE_INPUT]",
  txt!"[CONTROLLABLE_INPUT]"]

def declareAll (thoroughly : Bool) (lines : List (List Char × List Char)) : List (List Char) → Conv → Option Conv
  | [], c => some c
  | s :: ss, c => (declareLines thoroughly s (linesOf s lines) c).bind (declareAll thoroughly lines ss)

/-- `compiler.py:597`. -/
def propertyTypes : List (List Char) := [txt!"[ENV_TRANS]", txt!"[ENV_INIT]", txt!"[SYS_TRANS]", txt!"[SYS_INIT]", txt!"[ENV_LIVENESS]",
  txt!"[SYS_LIVENESS]"]

/-- `compiler.py:587-593`: the lines printed for the declarations. -/
def printDeclarations (io : List (List Char × List Char)) (s : List Char) : List (List Char) :=
  if (linesOf s io).length > 0 then [s] ++ linesOf s io ++ [[]] else []

/-- The body of the loop of `compiler.py:602-617`: what is printed for one line. -/
def convertLine (c : Conv) (a : List Char) : Py (List Char) :=
  if (strip a).length = 0 ∨ (strip a).take 1 = txt!"#" then .ok a
  else if isPrefixLine c.booleanAPs (split txt!" " (strip a)) then .ok a
  else translateLine c.names c.booleanAPs a

def convertLines (c : Conv) : List (List Char) → Py (List (List Char))
  | [] => .ok []
  | l :: ls => (convertLine c l).bind fun l' => (convertLines c ls).bind fun ls' => .ok (l' :: ls')

/-- `compiler.py:597-618`: the lines printed for the constraints. -/
def printProperties (c : Conv) (lines : List (List Char × List Char)) : List (List Char) → Py (List (List Char))
  | [] => .ok []
  | s :: ss =>
    if (linesOf s lines).length > 0 then
      (convertLines c (linesOf s lines)).bind fun ls =>
        (printProperties c lines ss).bind fun rest => .ok ([s] ++ ls ++ [[]] ++ rest)
    else printProperties c lines ss

/-- Printing lines. -/
def printLines : List (List Char) → List Char
  | [] => []
  | l :: ls => l ++ '\n' :: printLines ls

/-- `performConversion`, `compiler.py:486-618`: the text that is printed.  (What has been printed when an exception is raised is not modelled, nor are errors on opening
and decoding the file.) -/
def convert (thoroughly : Bool) (text : List Char) : Py (List Char) :=
  (Py.ofOption (readSections [] (pyLines text))).bind fun lines =>
    (Py.ofOption (declareAll thoroughly lines variableTypes ⟨[], [], [], []⟩)).bind fun c =>
      (printProperties c (lines ++ c.extra) propertyTypes).bind fun ps =>
        .ok (printLines (variableTypes.flatMap (printDeclarations c.io) ++ ps))

end Slugs.Model.Structured
