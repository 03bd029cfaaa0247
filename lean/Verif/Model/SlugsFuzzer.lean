import Verif.Model.AisyFuzzer
import Verif.Model.LtlTranslators
import Verif.Model.CommandLine

/-!
Model of `tools/slugsFuzzer.py`: random specifications are translated, given to slugs, and the implementations are checked with NuSMV.

Random numbers are taken from a list of natural numbers as in `Model/AisyFuzzer.lean`.
-/

namespace Slugs.Model.SlugsFuzzer

open Slugs.Spec Slugs.Model.Structured
open Slugs.Model.AisyFuzzer (Draws choice several)

/-- `ops`, `slugsFuzzer.py:60`. -/
def ops : List (List Char) := [txt!"!", txt!"next", txt!"&", txt!"|", txt!"AP", txt!"AP", txt!"TRUE"]

/-- `:61-63`. -/
def pickOp (apsUsableWithNext : List Word) : Draws → Option (List Char × Draws)
  | [] => none
  | d :: ds =>
    match ops[d % ops.length]? with
    | none => none
    | some op => if op = txt!"next" ∧ apsUsableWithNext.length = 0 then pickOp apsUsableWithNext ds else some (op, ds)

/-- `makeAProperty`, `:59-78`.  The first argument is the depth of the recursion that is allowed. -/
def makeAProperty : Nat → List Word → List Word → Draws → Option (List Char × Draws)
  | 0, _, _, _ => none
  | depth + 1, apsUsableWithoutNext, apsUsableWithNext, ds =>
    match pickOp apsUsableWithNext ds with
    | none => none
    | some (op, ds) =>
      if op = txt!"!" then
        match makeAProperty depth apsUsableWithoutNext apsUsableWithNext ds with
        | none => none
        | some (t, ds) => some (txt!"!" ++ t, ds)
      else if op = txt!"next" then
        match makeAProperty depth apsUsableWithNext [] ds with
        | none => none
        | some (t, ds) => some (txt!"next(" ++ t ++ txt!")", ds)
      else if op = txt!"&" ∨ op = txt!"|" then
        match makeAProperty depth apsUsableWithoutNext apsUsableWithNext ds with
        | none => none
        | some (t1, ds) =>
          match makeAProperty depth apsUsableWithoutNext apsUsableWithNext ds with
          | none => none
          | some (t2, ds) => some (txt!"((" ++ t1 ++ txt!")" ++ op ++ txt!"(" ++ t2 ++ txt!"))", ds)
      else if op = txt!"AP" ∧ apsUsableWithoutNext.length > 0 then choice apsUsableWithoutNext ds
      else some (txt!"TRUE", ds)

/-- `:81-82`; `nofAPsPerType` is 3. -/
def apsInput : List Word := (List.range 3).map fun i => txt!"e.in" ++ strNat i
def apsOutput : List Word := (List.range 3).map fun i => txt!"s.out" ++ strNat i

/-- The SMV file, `:45-52`. -/
def smvText : List Char :=
  txt!"-- Skeleton SMV file\n-- (Generated by the Fuzzer) \n\nMODULE main\n    VAR\n        e : env();\n        s : sys();\n\nMODULE env -- inputs\n    VAR\n" ++
  (List.range 3).flatMap (fun i => txt!"\t\tin" ++ strNat i ++ txt!" : boolean;\n") ++
  txt!"MODULE sys -- outputs\n    VAR\n" ++
  (List.range 3).flatMap (fun i => txt!"\t\tout" ++ strNat i ++ txt!" : boolean;\n")

/-- What is written for a property of the first two kinds, e.g. `:88`, and of the third, e.g. `:94`. -/
def always (t : List Char) : List Char := txt!"  &  [](" ++ t ++ txt!")\n"
def infinitelyOften (t : List Char) : List Char := txt!"  &  []<>(" ++ t ++ txt!")\n"

/-- Three loops, e.g. `:87-94`: the text that is written. -/
def parts (depth : Nat) (initNow safeNow safeNext liveNow : List Word) (ds : Draws) : Option (List Char × Draws) :=
  match several (makeAProperty depth initNow []) (ds.length + 1) ds with
  | none => none
  | some (t1, ds) =>
    match several (makeAProperty depth safeNow safeNext) (ds.length + 1) ds with
    | none => none
    | some (t2, ds) =>
      match several (makeAProperty depth liveNow []) (ds.length + 1) ds with
      | none => none
      | some (t3, ds) => some (t1.flatMap always ++ t2.flatMap always ++ t3.flatMap infinitelyOften, ds)

/-- The LTL file, `:84-107`. -/
def generate (depth : Nat) (ds : Draws) : Option (List Char × Draws) :=
  match parts depth apsInput (apsInput ++ apsOutput) apsInput (apsInput ++ apsOutput) ds with
  | none => none
  | some (as, ds) =>
    match parts depth (apsInput ++ apsOutput) (apsInput ++ apsOutput) (apsInput ++ apsOutput) (apsInput ++ apsOutput) ds with
    | none => none
    | some (gs, ds) =>
      some (txt!"LTLSPEC -- Assumptions\n\t( \n\t\tTRUE  " ++ as ++ txt!");\n" ++ (txt!"LTLSPEC -- Guarantees\n\t( \n\t\tTRUE  " ++ gs ++ txt!");\n"), ds)

/-- The names of the files, `:22-29`; `pid` is the number of the process. -/
def slugsinFile (pid : Nat) : List Char := txt!"/tmp/fuzz_" ++ strNat pid ++ txt!".slugsin"
def autFile (pid : Nat) : List Char := txt!"/tmp/fuzz_" ++ strNat pid ++ txt!".aut"

/-- The arguments that slugs gets, `:34` and `:122`; `options` are the arguments of the fuzzer after the seed.  (These do not contain characters with a meaning for the shell.) -/
def slugsArguments (options : List (List Char)) (pid : Nat) : List (List Char) :=
  options ++ [txt!"--sysInitRoboticsSemantics", txt!"--explicitStrategy" ++ slugsinFile pid, autFile pid]

/-- How a round can end. -/
inductive Round where
  | translationFailed
  | slugsFailed
  | other (r : Bool)
  deriving DecidableEq, Repr

/-- `fuzzOnce`, `:41-`; `rest` is what happens when slugs accepts its arguments, for the text of the file and what slugs is to do. -/
def fuzzOnce (rest : List Char → MainOutcome → Round) (options : List (List Char)) (pid depth : Nat) (ds : Draws) : Option (Round × Draws) :=
  match generate depth ds with
  | none => none
  | some (ltl, ds) =>
    match LtlText.fromLtlmop smvText ltl with
    | none => some (.translationFailed, ds)
    | some slugsin =>
      match runMain (slugsArguments options pid) with
      | .run p spec second output => some (rest slugsin (.run p spec second output), ds)
      | _ => some (.slugsFailed, ds)

/-- The loop `:194-197`, until a round fails: the number of dots that are printed after `n` rounds, and whether the loop goes on. -/
def fuzz (rest : List Char → MainOutcome → Round) (options : List (List Char)) (pid depth : Nat) : Nat → Draws → Option (Nat × Bool)
  | 0, _ => some (0, true)
  | n + 1, ds =>
    match fuzzOnce rest options pid depth ds with
    | none => none
    | some (.other true, ds) => (fuzz rest options pid depth n ds).map fun r => (r.1 + 1, r.2)
    | some (_, _) => some (0, false)

end Slugs.Model.SlugsFuzzer
