import Verif.Model.Run
import Verif.Model.CommandLine
import Verif.Spec.SpecFile

/-!
Model of `tools/findMinimalUnrealizableCore.py`.  Not modelled: the lines printed to the terminal; a name of the file without a dot (`:45` raises an exception);
other programs that write to `/tmp/core.slugsin` at the same time.
-/

namespace Slugs.Model.Core

open Slugs.Spec

/-- The dictionary `categories`, `findMinimalUnrealizableCore.py:51`.  Its keys are the headers of the sections. -/
abbrev Categories := Section → List (List Char)

/-- `categories[s].append(line)`, `:62`. -/
def Categories.add (c : Categories) (s : Section) (line : List Char) : Categories := fun s' => if s' = s then c s' ++ [line] else c s'

/-- The loop `:55-62` over the lines; `none` is a `KeyError`. -/
def readLines : List Char → Categories → List (List Char) → Option Categories
  | _, c, [] => some c
  | currentCategory, c, l :: ls =>
    let line := trim l
    if line.head? = some '#' then readLines currentCategory c ls
    else if line.head? = some '[' then readLines line c ls
    else if line.length > 0 then
      match headerOf currentCategory with
      | none => none
      | some s => readLines currentCategory (c.add s line) ls
    else readLines currentCategory c ls

/-- `coreFile.write(a + "\n")` for every line. -/
def writeLines (ls : List (List Char)) : List Char := ls.flatMap fun l => l ++ ['\n']

/-- The sections in the order in which they are written, each with its lines; `gap` are the lines that follow each section. -/
def sectionLines (gap : List (List Char)) (ss : List Section) (c : Categories) : List (List Char) := ss.flatMap fun s => s.header :: (c s ++ gap)

/-- `:69-77`: the seven other sections and then the liveness guarantees. -/
def livenessOrder : List Section := [.input, .output, .envInit, .envLiveness, .envTrans, .sysInit, .sysTrans, .sysLiveness]

/-- `:88-96` and `:105`: the safety guarantees come last. -/
def safetyOrder : List Section := [.input, .output, .envInit, .envLiveness, .envTrans, .sysInit, .sysLiveness, .sysTrans]

/-- The dictionary with other lines for one section. -/
def Categories.put (c : Categories) (s : Section) (ls : List (List Char)) : Categories := fun s' => if s' = s then ls else c s'

/-- The loops `:65-82` and `:84-101`.  `kept` are the lines before the line with the number `lineNr`, `rest` are those from there on; the line `lineNr` is left out
of the file for which `isRealizable` is called. -/
def shrink (isRealizable : List Char → Option Bool) (order : List Section) (s : Section) (c : Categories) :
    List (List Char) → List (List Char) → Option (List (List Char))
  | kept, [] => some kept
  | kept, l :: rest =>
    match isRealizable (writeLines (sectionLines [] order (c.put s (kept ++ rest)))) with
    | none => none
    | some false => shrink isRealizable order s c kept rest
    | some true => shrink isRealizable order s c (kept ++ [l]) rest

/-- `findMinimalCore`, `:44-110`: the final content of `/tmp/core.slugsin`, or `none` for an exception. -/
def findMinimalCore (isRealizable : List Char → Option Bool) (text : List Char) : Option (List Char) :=
  match readLines [] (fun _ => []) (splitLines text) with
  | none => none
  | some c =>
    match shrink isRealizable livenessOrder .sysLiveness c [] (c .sysLiveness) with
    | none => none
    | some live =>
      let c := c.put .sysLiveness live
      match shrink isRealizable safetyOrder .sysTrans c [] (c .sysTrans) with
      | none => none
      | some safe => some (writeLines (sectionLines [[]] safetyOrder (c.put .sysTrans safe)))

/-- The file that is checked. -/
def coreFile : List Char := txt!"/tmp/core.slugsin"

/-- `isRealizable`, `:19-41`, when `slugs` is called with the given options and `/tmp/core.slugsin` has the given content.  `slugs` exits with 1 if its arguments are
not accepted or if the file cannot be processed (`main.cpp:308-312, 337-355`); then an exception is raised (`:25-27`), and also if no verdict is found in what it
writes (`:38-40`). -/
def isRealizable (options : List (List Char)) (B : Type) [DecidableEq B] [BddLib B] (alg : Algorithm) (cap : Nat) (order : List Char → Bool) (fuel : Nat)
    (text : List Char) : Option Bool :=
  match runMain (options ++ [coreFile]) with
  | .run .gr1 _ _ _ =>
    match runSlugs B alg false cap order fuel text with
    | .result b => some b
    | _ => none
  | _ => none

/-- The options with which the tool calls `slugs`, `:23`. -/
def toolOptions : List (List Char) := [txt!"--onlyRealizability"]

end Slugs.Model.Core
