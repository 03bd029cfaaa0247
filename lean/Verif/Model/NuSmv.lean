import Verif.Model.Aiger
import Verif.Model.Graphviz
import Verif.Spec.Smv

/-!
Model of `tools/makeNuSMVInstanceToTestAutomatonFileAgainstSlugsSpecification.py`, a Python 2 program.  Not modelled: what has been written when an exception is raised, the limit
on the depth of recursive calls, and the texts of error messages.
-/

namespace Slugs.Model.NuSmv

open Slugs.Spec Slugs.Model.Structured
open Slugs.Model.Core (Categories)
open Slugs.Model.Graphviz (setItem)

/-- The loop over the lines of the specification, `makeNuSMVInstanceToTestAutomatonFileAgainstSlugsSpecification.py:34-43`; `none` is an exception. -/
def readSpec : List Char → Categories → List (List Char) → Option Categories
  | _, c, [] => some c
  | currentCategory, c, l :: ls =>
    let line := trim l
    if line.head? ≠ some '#' ∧ line.length > 0 then
      if line.head? = some '[' then
        match headerOf line with
        | none => none
        | some _ => readSpec line c ls
      else
        match headerOf currentCategory with
        | none => none
        | some s => readSpec currentCategory (c.add s line) ls
    else readSpec currentCategory c ls

/-- `re.split`: `sep` is the length of the separator at the beginning of a text, or 0; `cur` is the current piece, reversed, and the first argument the number of characters of a separator
still to be skipped. -/
def reSplitAux (sep : List Char → Nat) : Nat → List Char → List Char → List (List Char)
  | _, cur, [] => [cur.reverse]
  | k + 1, cur, _ :: cs => reSplitAux sep k cur cs
  | 0, cur, c :: cs =>
    match sep (c :: cs) with
    | 0 => reSplitAux sep 0 (c :: cur) cs
    | k + 1 => cur.reverse :: reSplitAux sep k [] cs

def reSplit (sep : List Char → Nat) (s : List Char) : List (List Char) := reSplitAux sep 0 [] s

/-- `r" ->|, | |<|:|>"`, `:55`. -/
def firstSep (s : List Char) : Nat :=
  if txt!" ->".isPrefixOf s then 3
  else if txt!", ".isPrefixOf s then 2
  else if s.head? = some ' ' ∨ s.head? = some '<' ∨ s.head? = some ':' ∨ s.head? = some '>' then 1
  else 0

/-- `r"  +| : |, "`, `:56`. -/
def secondSep (s : List Char) : Nat :=
  if txt!"  ".isPrefixOf s then (s.takeWhile (· = ' ')).length
  else if txt!" : ".isPrefixOf s then 3
  else if txt!", ".isPrefixOf s then 2
  else 0

/-- `apValuation`: a dictionary from names to numbers. -/
abbrev Valuation := List (List Char × Int)

/-- An element of `automatonStates`: the values and the successors. -/
abbrev AState := Valuation × List Int

/-- The loop `:74-75`, on the pieces from number 7 on. -/
def readValues : List (List Char) → Valuation → Option Valuation
  | x :: v :: rest, d =>
    match StuckAt.int2 v with
    | none => none
    | some n => readValues rest (setItem x n d)
  | _, d => some d

/-- `:58-75`: the first line of a state; `n` is the number of states so far. -/
def firstLine (n : Nat) (currentLine : List Char) : Option Valuation :=
  let lineparts := reSplit firstSep currentLine
  if lineparts[0]? = some txt!"State" ∧ lineparts[1]? = some (strNat n) ∧ lineparts[2]? = some txt!"with" ∧ lineparts[3]? = some txt!"rank" ∧
      lineparts[5]? = some [] ∧ lineparts[6]? = some [] then
    readValues (lineparts.drop 7) []
  else none

/-- `:78-83`: the second line of a state. -/
def secondLine (line : List Char) : Option (List Int) :=
  let lineparts := reSplit secondSep (trim line)
  if txt!"With successors".isPrefixOf (lineparts.headD []) then lineparts.tail.mapM StuckAt.int2 else none

/-- The loop `:57-88` over the lines of the automaton. -/
def readAutomaton : List (List Char) → List AState → Option (List AState)
  | [], states => some states
  | l :: ls, states =>
    if (trim l).length > 0 then
      match firstLine states.length (trim l), ls with
      | some valuation, l' :: ls' =>
        match secondLine l' with
        | none => none
        | some successors => readAutomaton ls' (states ++ [(valuation, successors)])
      | _, _ => none
    else readAutomaton ls states

/-- `automatonStates[i]`; negative numbers count from the end. -/
def item {A : Type} (l : List A) (i : Int) : Option A :=
  if 0 ≤ i then l[i.toNat]? else if 0 ≤ l.length + i then l[(l.length + i).toNat]? else none

/-- `" & "`, possibly `"!"`, and the name of a variable, e.g. `:112-115`; `prefix'` is `"v_"` or `"i_"`. -/
def literals (prefix' : List Char) (valuation : Valuation) : List Word → Option (List Char)
  | [] => some []
  | a :: as =>
    match valuation.lookup a, literals prefix' valuation as with
    | some value, some rest => some (txt!" & " ++ (if value = 0 then txt!"!" else []) ++ prefix' ++ a ++ rest)
    | _, _ => none

/-- `:109-117` and `:159-172`, for one state and one successor; `result` is what is written after the condition, given the values of the successor. -/
def transitionText (inputs : List Word) (states : List AState) (result : Valuation → Int → Option (List Char)) (prestate : Nat) (succ : Int) : Option (List Char) := do
  let s ← item states succ
  let l ← literals txt!"v_" s.1 inputs
  let r ← result s.1 succ
  some (txt!"    state = " ++ strNat prestate ++ l ++ txt!" : " ++ r ++ txt!";\n")

/-- The loops `:107-117` and `:157-172`. -/
def transitionsText (inputs : List Word) (states : List AState) (result : Valuation → Int → Option (List Char)) : Option (List Char) :=
  (states.zipIdx.mapM fun (e : AState × Nat) => (e.1.2.mapM (transitionText inputs states result e.2)).map List.flatten).map List.flatten

/-- `:120-138` and `:175-195`, for one state. -/
def initialText (inputs outputs : List Word) (states : List AState) (result : Valuation → Option (List Char)) (s : AState) : Option (List Char) := do
  let l ← literals txt!"v_" s.1 inputs
  let l' ← literals txt!"i_" s.1 outputs
  let r ← result s.1
  some (txt!"    state = " ++ strNat states.length ++ l ++ l' ++ txt!" : " ++ r ++ txt!";\n")

/-- Equality of dictionaries. -/
def sameValues (d d' : Valuation) : Bool := d.length = d'.length ∧ ∀ e ∈ d, d'.lookup e.1 = some e.2

/-- `:134-138`: the numbers of the states with the same values. -/
def possibleStates (states : List AState) (d : Valuation) : List Char :=
  txt!"{" ++ Smv.sepBy txt!"," ((states.zipIdx.filter fun e => sameValues d e.1.1).map fun e => strNat e.2) ++ txt!"}"

/-- `:168-172` and `:190-194`. -/
def truthText (outputBit : Word) (d : Valuation) : Option (List Char) :=
  (d.lookup outputBit).map fun v => if v = 0 then txt!"FALSE" else txt!"TRUE"

/-- `:106-151`: the next state. -/
def nextStateText (inputs outputs : List Word) (states : List AState) : Option (List Char) := do
  let t ← transitionsText inputs states fun _ succ => some (strInt succ)
  let i ← states.mapM (initialText inputs outputs states fun d => some (possibleStates states d))
  some (txt!"  next(state) :=\n   case\n" ++ t ++ i.flatten ++
    txt!"    -- If we are in a non-initialization state if and the environment plays some not-allowed next input, then we may move to any state next.\n" ++
    txt!"    state < " ++ strNat states.length ++ txt!" : {" ++ Smv.sepBy txt!", " ((List.range states.length).map strNat) ++ txt!"};\n" ++
    txt!"    -- If during initization, the environment provides us with some illegal first state, then we must stay in this initial state. Our LTL assumption at the end of this file filter this case out.\n" ++
    txt!"    TRUE : " ++ strNat states.length ++ txt!";\n   esac;\n")

/-- `:154-198`: the next value of an output. -/
def nextOutputText (inputs outputs : List Word) (states : List AState) (outputBit : Word) : Option (List Char) := do
  let t ← transitionsText inputs states fun d _ => truthText outputBit d
  let i ← states.mapM (initialText inputs outputs states (truthText outputBit))
  some (txt!"  next(v_" ++ outputBit ++ txt!") :=\n   case\n" ++ t ++ i.flatten ++ txt!"    TRUE : {FALSE,TRUE};\n   esac;\n")

/-- The loops for atomic propositions, `:222-231` and `:253-262`: what is returned for the first name that is found; `none` is an exception. -/
def atom (now next : List Char) (nextAllowed : Bool) (op : List Char) : List Word → Option (Option (List Char))
  | [] => none
  | ap :: aps =>
    if ap = op then some (some (now ++ txt!"v_" ++ ap))
    else if ap ++ txt!"'" = op then some (if nextAllowed then some (next ++ txt!"v_" ++ ap) else none)
    else atom now next nextAllowed op aps

/-- `slugsToLTL` (`trans = true`), `:203-232`, and `slugsInitToLTL` (`trans = false`), `:234-263`, on the tokens that are left, the next one first: the text and the tokens that are left
then; `none` is an exception.  The first argument bounds the depth of the recursion; the number of tokens plus one is always enough, as every call takes a token. -/
def toLtl (trans : Bool) (inputs outputs : List Word) : Nat → List (List Char) → Option (List Char × List (List Char))
  | 0, _ => none
  | _ + 1, [] => none
  | fuel + 1, op :: tokens =>
    if op = txt!"|" ∨ op = txt!"&" then do
      let (part1, tokens) ← toLtl trans inputs outputs fuel tokens
      let (part2, tokens) ← toLtl trans inputs outputs fuel tokens
      some (txt!"(" ++ part1 ++ txt!" " ++ op ++ txt!" " ++ part2 ++ txt!")", tokens)
    else if op = txt!"!" then do
      let (part1, tokens) ← toLtl trans inputs outputs fuel tokens
      some (txt!"! " ++ part1, tokens)
    else if op = txt!"1" then some (txt!"TRUE", tokens)
    else if op = txt!"0" then some (txt!"FALSE", tokens)
    else
      match atom [] txt!"X " trans op inputs with
      | some r => r.map fun t => (t, tokens)
      | none =>
        match atom txt!"X " txt!"X X " trans op outputs with
        | some r => r.map fun t => (t, tokens)
        | none => none

/-- `slugsToLTLNotYetReversed(line.split(" "))`, and the same for initial constraints. -/
def lineLtl (trans : Bool) (inputs outputs : List Word) (line : List Char) : Option (List Char) :=
  (toLtl trans inputs outputs ((split [' '] line).length + 1) (split [' '] line)).map Prod.fst

/-- `"("+" & ".join(["TRUE"]+l)+")"`, `:265-266` and `:275`. -/
def conjunctionText (l : List (List Char)) : List Char := txt!"(" ++ Smv.sepBy txt!" & " (txt!"TRUE" :: l) ++ txt!")"

/-- `:265-278`: the specifications. -/
def specsText (c : Categories) (states : List AState) : Option (List Char) := do
  let line := lineLtl true (c .input) (c .output)
  let sysInit ← (c .sysInit).mapM (lineLtl false (c .input) (c .output))
  let envInit ← (c .envInit).mapM (lineLtl false (c .input) (c .output))
  let allInitChecker := conjunctionText (sysInit ++ envInit)
  let envTrans ← (c .envTrans).mapM line
  let allSafetyAssumptions := conjunctionText envTrans
  let allInitAssumptions := txt!"(" ++ allInitChecker ++ txt!" & (X state!=" ++ strNat states.length ++ txt!"))"
  let sysTrans ← (c .sysTrans).mapM line
  let safety := sysTrans.map fun thisSafetyGuarantee =>
    txt!"LTLSPEC " ++ allInitAssumptions ++ txt!" -> ((!" ++ allSafetyAssumptions ++ txt!") V (" ++ thisSafetyGuarantee ++ txt!" | ! " ++ allSafetyAssumptions ++ txt!"));\n"
  let envLiveness ← (c .envLiveness).mapM line
  let allLivenessAssumptions := conjunctionText (envLiveness.map (txt!"G F " ++ ·))
  let sysLiveness ← (c .sysLiveness).mapM line
  let liveness := sysLiveness.map fun thisLivenessGuarantee =>
    txt!"LTLSPEC (" ++ allInitAssumptions ++ txt!" & G " ++ allSafetyAssumptions ++ txt!" & " ++ allLivenessAssumptions ++ txt!") -> G F " ++ thisLivenessGuarantee ++ txt!";\n"
  some (safety.flatten ++ liveness.flatten)

/-- `:92-105`: the declarations. -/
def declarations (c : Categories) (states : List AState) : List Char :=
  txt!"MODULE main\n IVAR\n" ++ (c .input).flatMap (fun var => txt!"  v_" ++ var ++ txt!" : boolean;\n") ++ (c .output).flatMap (fun var => txt!"  i_" ++ var ++ txt!" : boolean;\n") ++
    txt!" VAR\n" ++ (c .output).flatMap (fun var => txt!"  v_" ++ var ++ txt!" : boolean;\n") ++ txt!"  state : 0.." ++ strNat states.length ++ txt!";\n" ++
    txt!" ASSIGN\n  init(state) := " ++ strNat states.length ++ txt!";\n"

/-- `:92-278`. -/
def instanceText (c : Categories) (states : List AState) : Option (List Char) := do
  let n ← nextStateText (c .input) (c .output) states
  let o ← (c .output).mapM (nextOutputText (c .input) (c .output) states)
  let s ← specsText c states
  some (declarations c states ++ n ++ o.flatten ++ txt!"\n" ++ s)

/-- The file that is written for a specification and an automaton with the given texts; `none` if an exception is raised. -/
def makeInstance (slugsText autText : List Char) : Option (List Char) := do
  let c ← readSpec [] (fun _ => []) (Aiger.rawLines slugsText)
  let states ← readAutomaton (Aiger.rawLines autText) []
  instanceText c states

end Slugs.Model.NuSmv
