import Verif.Model.StuckAt

/-!
Model of `tools/translateSafetySlugsSpecToSyntCompAIGFormat.py`, a Python 2 program.  Not modelled: what has been printed when an exception is raised, and the limit
on the depth of recursive calls.  Numbers in lines are kept as numbers until the lines are printed.
-/

namespace Slugs.Model.Aiger

open Slugs.Spec Slugs.Model.Structured
open Slugs.Model.Core (Categories readLines writeLines)

/-- A dictionary from names to literals. -/
abbrev Dict := List (Word × Nat)

/-- `variables[x] = n`; the order of the entries does not matter. -/
def Dict.set (d : Dict) (x : Word) (n : Nat) : Dict := d.filter (fun e => e.1 ≠ x) ++ [(x, n)]

/-- `varNumbersUsedSoFar`, `nofGates` and `lines`. -/
structure St where
  used : Nat
  nofGates : Nat
  lines : List (List Nat)

/-- `lines.append(...)`. -/
def St.line (s : St) (ns : List Nat) : St := { s with lines := s.lines ++ [ns] }

/-- `varNumbersUsedSoFar += n`. -/
def St.use (s : St) (n : Nat) : St := { s with used := s.used + n }

/-- `nofGates += n`. -/
def St.count (s : St) (n : Nat) : St := { s with nofGates := s.nofGates + n }

/-- The text before the first blank and the text after it, `translateSafetySlugsSpecToSyntCompAIGFormat.py:22-28` and `:71-77`. -/
def cut (s : List Char) : List Char × List Char := (s.takeWhile (· ≠ ' '), (s.dropWhile (· ≠ ' ')).drop 1)

/-- The same in `:62-64`, where no blank is found at position `-1`. -/
def cutNumber (s : List Char) : List Char × List Char := if ' ' ∈ s then cut s else (s.dropLast, s)

/-- `memoryTable[part]`; negative numbers count from the end. -/
def recall (memory : List Nat) (part : Int) : Option Nat :=
  if 0 ≤ part then memory[part.toNat]? else if 0 ≤ memory.length + part then memory[(memory.length + part).toNat]? else none

/-- The loop `:66-68`; `rec` is the recursive call. -/
def encodeParts (rec : List Nat → List Char → St → Option (List Char × Nat × St)) : Nat → List Nat → List Char → St → Option (List Char × List Nat × St)
  | 0, memory, rest, s => some (rest, memory, s)
  | n + 1, memory, rest, s => do
    let (rest, gate, s) ← rec memory rest s
    encodeParts rec n (memory ++ [gate]) rest s

/-- `recurseMakeAIGEncodingOfBooleanFormula`, `:19-81`: the rest of the formula, the literal for what has been read, and the state; `none` is an exception.  The first
argument bounds the depth of the recursion; the length of the formula plus one is always enough, as every call that leads to another one reads a character. -/
def encode (vars : Dict) : Nat → List Nat → List Char → St → Option (List Char × Nat × St)
  | 0, _, _, _ => none
  | fuel + 1, memory, formula, s =>
    let (token, rest) := cut formula
    if token = txt!"1" then some (rest, 1, s)
    else if token = txt!"0" then some (rest, 0, s)
    else if token = txt!"!" then do
      let (rest, a, s) ← encode vars fuel memory rest s
      some (rest, a ^^^ 1, s)
    else if token = txt!"|" then do
      let (rest, a, s) ← encode vars fuel memory rest s
      let (rest, b, s) ← encode vars fuel memory rest s
      let s := (s.use 1).count 1
      some (rest, (s.used * 2) ^^^ 1, s.line [s.used * 2, a ^^^ 1, b ^^^ 1])
    else if token = txt!"^" then do
      let (rest, a, s) ← encode vars fuel memory rest s
      let (rest, b, s) ← encode vars fuel memory rest s
      let n := s.used
      let s := ((s.line [n * 2 + 2, a ^^^ 1, b ^^^ 1]).line [n * 2 + 4, a, b]).line [n * 2 + 6, n * 2 + 3, n * 2 + 5]
      let s := (s.use 3).count 3
      some (rest, s.used * 2, s)
    else if token = txt!"&" then do
      let (rest, a, s) ← encode vars fuel memory rest s
      let (rest, b, s) ← encode vars fuel memory rest s
      let s := (s.use 1).count 1
      some (rest, s.used * 2, s.line [s.used * 2, a, b])
    else if token = txt!"$" then do
      let (number, rest) := cutNumber rest
      let n ← StuckAt.int2 number
      let (rest, memory, s) ← encodeParts (encode vars fuel) n.toNat [] rest s
      let last ← memory.getLast?
      some (rest, last, s)
    else if token = txt!"?" then do
      let (number, rest) := cut rest
      let n ← StuckAt.int2 number
      let a ← recall memory n
      some (rest, a, s)
    else do
      let a ← vars.lookup token
      some (rest, a, s)

/-- `"& "*(len(c)-1)+" ".join(c)`, `:168`, `:173`, `:186` and `:191`. -/
def conjunction (c : List (List Char)) : List Char := (List.replicate (c.length - 1) txt!"& ").flatten ++ joinWords c

/-- `:169-170`, `:174-175`, `:187-188` and `:192-193`: the literal for the conjunction of the lines of a section. -/
def encodeSection (vars : Dict) (c : List (List Char)) (s : St) : Option (Nat × St) := do
  let formula := conjunction c
  let (rest, a, s) ← encode vars (formula.length + 1) [] formula s
  if rest.length = 0 then some (a, s) else none

/-- `:133-137`: a number for every variable. -/
def numberVariables : List Word → Dict → St → Dict × St
  | [], d, s => (d, s)
  | x :: xs, d, s =>
    let s := s.use 1
    numberVariables xs (d.set x (s.used * 2)) (s.line [s.used * 2])

/-- `:153-159`: a latch for the old value of every variable. -/
def oldValues (vars : Dict) : List Word → Dict → St → Option (Dict × St)
  | [], d, s => some (d, s)
  | x :: xs, d, s => do
    let s := s.use 1
    let l ← vars.lookup x
    oldValues vars xs ((d.set x (s.used * 2)).set (x ++ txt!"'") l) (s.line [s.used * 2, l])

/-- `:115-117`: empty sections get a line. -/
def fill (c : Categories) : Categories := fun s =>
  if (s = .envInit ∨ s = .sysInit ∨ s = .envTrans ∨ s = .sysTrans) ∧ (c s).length = 0 then [txt!"1"] else c s

/-- The gates `:178-183` and `:196-201`: `g` becomes true if `a` is true and, in the first round, the literal `init` and, in the other rounds, the literal `trans` is true
(if `neg` is 0) or false (if `neg` is 1). -/
def checkGates (g a neg init trans notFirst : Nat) (s : St) : St :=
  let n := s.used
  let s := s.line [g, a, n * 2 + 2 + neg]
  let s := s.line [n * 2 + 2, n * 2 + 5, n * 2 + 7]
  let s := s.line [n * 2 + 4, init ^^^ 1, notFirst ^^^ 1]
  let s := s.line [n * 2 + 6, trans ^^^ 1, notFirst]
  (s.count 4).use 3

/-- `:122-201`: the dictionary `variables` and the state in the end; `none` is an exception. -/
def circuit (c : Categories) : Option (Dict × St) := do
  let s : St := ⟨1, 0, []⟩
  let notFirst := s.used * 2 + 2
  let s := s.use 1
  let (vars, s) := numberVariables (c .input ++ c .output) [] s
  let violated := s.used * 2 + 2
  let assumptions := s.used * 2 + 4
  let guarantees := s.used * 2 + 6
  let s := (s.use 3).line [notFirst, 1]
  let (variablesInTrans, s) ← oldValues vars (c .input ++ c .output) [] s
  let s := s.line [violated, assumptions ^^^ 1]
  let s := s.line [guarantees]
  let (envInit, s) ← encodeSection vars (c .envInit) s
  let (envTrans, s) ← encodeSection variablesInTrans (c .envTrans) s
  let s := checkGates assumptions (violated ^^^ 1) 0 envInit envTrans notFirst s
  let (sysInit, s) ← encodeSection vars (c .sysInit) s
  let (sysTrans, s) ← encodeSection variablesInTrans (c .sysTrans) s
  some (vars, checkGates guarantees assumptions 1 sysInit sysTrans notFirst s)

/-- `:109-201`; specifications with liveness constraints lead to exceptions. -/
def safetyCircuit (c : Categories) : Option (Dict × St) :=
  if (c .envLiveness).length > 0 then none
  else if (c .sysLiveness).length > 0 then none
  else circuit (fill c)

/-- A line of numbers. -/
def showNumbers (ns : List Nat) : List Char := joinWords (ns.map strNat)

/-- Lines of the symbol table, `:209-219`; `k` is `inNumberSoFar`. -/
def symbolLines (kind : Char) (label : List Char) : Nat → List Word → List (List Char)
  | _, [] => []
  | k, x :: xs => ([kind] ++ strNat k ++ txt!" " ++ label ++ x) :: symbolLines kind label (k + 1) xs

/-- The lines of a file with their line ends, as `readlines` yields them. -/
def rawLinesAux : List Char → List Char → List (List Char)
  | cur, [] => if cur.isEmpty then [] else [cur.reverse]
  | cur, c :: cs => if c == '\n' then (cur.reverse ++ ['\n']) :: rawLinesAux [] cs else rawLinesAux (c :: cur) cs

/-- `slugsFile.readlines()`, `:91`; only `\n` ends a line. -/
def rawLines (text : List Char) : List (List Char) := rawLinesAux [] text

/-- The sentence in the comment, `:223`. -/
def note : List Char := txt!"This input file has been automatically translated by 'translateSafetySlugsSpecToSyntCompAIGFormat.py' from the following input file:"

/-- `produceAIGFileFromSlugsFile`, `:88-227`: what is printed for a file with the given content; `none` is an exception. -/
def translate (text : List Char) : Option (List Char) := do
  let slugsLines := rawLines text
  let c ← readLines [] (fun _ => []) slugsLines
  let (vars, s) ← safetyCircuit c
  let n := (c .input).length
  some (writeLines ([txt!"aag " ++ showNumbers [s.used * 2, vars.length, vars.length + 2, 1, s.nofGates]] ++ s.lines.map showNumbers ++
      symbolLines 'i' [] 0 (c .input) ++ symbolLines 'i' txt!"controllable_" n (c .output) ++ [txt!"l0 IsNotFirstRound"] ++
      symbolLines 'l' txt!"prev_" 1 (c .input ++ c .output) ++ [['l'] ++ strNat (1 + (c .input ++ c .output).length) ++ txt!" AssumptionsAlreadyViolated"] ++
      [txt!"o0 err", txt!"c", note]) ++
    (slugsLines.filter fun l => (trim l).length > 0).flatten ++ ['\n'])

end Slugs.Model.Aiger
