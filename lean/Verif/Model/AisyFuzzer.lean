import Verif.Model.Aiger
import Verif.Model.Run

/-!
Model of `tools/fuzzSafetySpecsAgainstAisy.py`: random safety specifications are given to slugs, and, after translation to circuits, to another solver.

Random numbers are taken from a list of natural numbers (`Draws`): `random.choice` and `random.randint` take the remainder modulo the number of possibilities, and a comparison
of `random.random()` with a probability is true if the number is odd.  `none` means that the list is used up, or that the recursion is deeper than allowed.
-/

namespace Slugs.Model.AisyFuzzer

open Slugs.Spec Slugs.Model.Structured

abbrev Draws := List Nat

/-- `random.choice(l)`. -/
def choice {A : Type} (l : List A) : Draws → Option (A × Draws)
  | [] => none
  | d :: ds => (l[d % l.length]?).map fun a => (a, ds)

/-- `random.randint(1,5)`, `:60`. -/
def randint : Draws → Option (Nat × Draws)
  | [] => none
  | d :: ds => some (1 + d % 5, ds)

/-- `random.random() < …`, e.g. `:79`. -/
def coin : Draws → Option (Bool × Draws)
  | [] => none
  | d :: ds => some (d % 2 = 1, ds)

/-- `ops`, `:46`. -/
def ops : List (List Char) := [txt!"!", txt!"&", txt!"|", txt!"AP", txt!"$", txt!"AP", txt!"TRUE"]

/-- The loop `:63-65`; the number is that of the elements still to be made, `i` that of the elements so far. -/
def elements (makeAProperty : List (List Char) → Draws → Option (List Char × Draws)) : Nat → Nat → List (List Char) → List Char → Draws → Option (List Char × Draws)
  | 0, _, _, allParts, ds => some (allParts, ds)
  | n + 1, i, aps, allParts, ds =>
    match makeAProperty aps ds with
    | none => none
    | some (t, ds) => elements makeAProperty n (i + 1) (aps ++ [txt!"? " ++ strNat i]) (allParts ++ ' ' :: t) ds

/-- `makeAProperty`, `:45-69`.  The loop `:48-49` has no effect, because `"next"` is not one of the operators.  The first argument is the depth of the recursion that is allowed. -/
def makeAProperty : Nat → List (List Char) → Draws → Option (List Char × Draws)
  | 0, _, _ => none
  | depth + 1, apsUsable, ds =>
    match choice ops ds with
    | none => none
    | some (op, ds) =>
      if op = txt!"!" then
        match makeAProperty depth apsUsable ds with
        | none => none
        | some (t, ds) => some (txt!"! " ++ t, ds)
      else if op = txt!"&" ∨ op = txt!"|" then
        match makeAProperty depth apsUsable ds with
        | none => none
        | some (t1, ds) =>
          match makeAProperty depth apsUsable ds with
          | none => none
          | some (t2, ds) => some (op ++ ' ' :: t1 ++ ' ' :: t2, ds)
      else if op = txt!"AP" then choice apsUsable ds
      else if op = txt!"$" ∧ txt!"? 0" ∉ apsUsable then
        match randint ds with
        | none => none
        | some (nofElements, ds) => elements (makeAProperty depth) nofElements 0 apsUsable (txt!"$ " ++ strNat nofElements) ds
      else some (txt!"1", ds)

/-- The loops `:79-86`; the first argument bounds the number of rounds. -/
def several (makeAProperty : Draws → Option (List Char × Draws)) : Nat → Draws → Option (List (List Char) × Draws)
  | 0, _ => none
  | n + 1, ds =>
    match coin ds with
    | none => none
    | some (false, ds) => some ([], ds)
    | some (true, ds) =>
      match makeAProperty ds with
      | none => none
      | some (t, ds) =>
        match several makeAProperty n ds with
        | none => none
        | some (ts, ds) => some (t :: ts, ds)

/-- `:72-75`; `nofAPsPerType` is 5. -/
def apsInput : List Word := (List.range 5).map fun i => txt!"in" ++ strNat i
def apsOutput : List Word := (List.range 5).map fun i => txt!"out" ++ strNat i
def apsInputPost : List Word := apsInput.map fun a => a ++ ['\'']
def apsOutputPost : List Word := apsOutput.map fun a => a ++ ['\'']

/-- The dictionary `properties`, `:78`, when all constraints have been added. -/
def propertiesOf (envInit envTrans sysInit sysTrans : List (List Char)) : Core.Categories
  | .input => apsInput
  | .output => apsOutput
  | .envInit => envInit
  | .envTrans => envTrans
  | .sysInit => sysInit
  | .sysTrans => sysTrans
  | _ => []

/-- `:78-86`. -/
def generate (depth : Nat) (ds : Draws) : Option (Core.Categories × Draws) :=
  match several (makeAProperty depth (apsInput ++ apsOutput ++ apsInputPost)) (ds.length + 1) ds with
  | none => none
  | some (envTrans, ds) =>
    match several (makeAProperty depth apsInput) (ds.length + 1) ds with
    | none => none
    | some (envInit, ds) =>
      match several (makeAProperty depth apsOutput) (ds.length + 1) ds with
      | none => none
      | some (sysInit, ds) =>
        match several (makeAProperty depth (apsInput ++ apsOutput ++ apsInputPost ++ apsOutputPost)) (ds.length + 1) ds with
        | none => none
        | some (sysTrans, ds) => some (propertiesOf envInit envTrans sysInit sysTrans, ds)

/-- `:90`. -/
def order : List Section := [.input, .output, .envInit, .envTrans, .sysInit, .sysTrans]

/-- The file, `:89-95`. -/
def slugsFile (properties : Core.Categories) : List Char := Core.writeLines (Core.sectionLines [[]] order properties)

/-- The end of a round: `+` or `-` is printed, or there is an error message and an exception. -/
inductive Round where
  | passed (realizable : Bool)
  | aborted
  deriving DecidableEq, Repr

/-- `:97-174`, for a given file.  `slugs` is what slugs does with a file; its exit status is 0 if and only if there is a verdict (`main.cpp:347-373`), so that the two checks `:101-103` and
`:117-119` are one here.  `solve` is what happens with the text of a circuit: it is converted with `aigtoaig`, optimized with `abc`, and given to Aisy; `none` means
that a conversion fails, and otherwise the value is the exit status of Aisy. -/
def compare (slugs : List Char → Outcome) (solve : List Char → Option Nat) (file : List Char) : Round :=
  match slugs file with
  | .result monolithicResult =>
    match Aiger.translate file with
    | none => .aborted
    | some aag =>
      match solve aag with
      | some 10 => if monolithicResult = false then .aborted else .passed true
      | some 20 => if monolithicResult = true then .aborted else .passed false
      | _ => .aborted
  | _ => .aborted

/-- `fuzzOnce`, `:42-176`. -/
def fuzzOnce (slugs : List Char → Outcome) (solve : List Char → Option Nat) (depth : Nat) (ds : Draws) : Option (Round × Draws) :=
  match generate depth ds with
  | none => none
  | some (properties, ds) => some (compare slugs solve (slugsFile properties), ds)

/-- The loop `:193-195`, for a number of rounds: what is printed, and whether all these rounds have been passed. -/
def fuzz (slugs : List Char → Outcome) (solve : List Char → Option Nat) (depth : Nat) : Nat → Draws → Option (List Char × Bool)
  | 0, _ => some ([], true)
  | n + 1, ds =>
    match fuzzOnce slugs solve depth ds with
    | none => none
    | some (.aborted, _) => some ([], false)
    | some (.passed b, ds) => (fuzz slugs solve depth n ds).map fun r => ((if b then '+' else '-') :: r.1, r.2)

end Slugs.Model.AisyFuzzer
