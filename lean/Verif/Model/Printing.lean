import Verif.Model.Explicit
import Verif.Model.Counter
import Verif.Spec.Json

/-!
Model of the texts that are printed for explicit strategies and counterstrategies: `extensionExtractExplicitStrategy.hpp`,
`extensionPermissiveExplicitStrategy.hpp` and `extensionExtractExplicitCounterstrategy.hpp`.
-/

namespace Slugs.Model

open Slugs.Spec (PState CState decimal)

/-- The effect of the variable `first`: ", " between the parts. -/
def withCommas : List (List Char) → List Char
  | [] => []
  | [s] => s
  | s :: t :: rest => s ++ txt!", " ++ withCommas (t :: rest)

def bitText (b : Bool) : List Char := if b then ['1'] else ['0']

/-- The values of a state, `extensionExtractExplicitStrategy.hpp:163-175`. -/
def labelText (label : List (Name × Bool)) : List Char := withCommas (label.map fun l => l.1 ++ [':'] ++ bitText l.2)

/-- One state in the text format, `extensionExtractExplicitStrategy.hpp:157-161,180,225-233,248`. -/
def stateText (st : PState) : List Char :=
  txt!"State " ++ decimal st.num ++ txt!" with rank " ++ decimal st.rank ++ txt!" -> <" ++ labelText st.label ++ txt!">\n\tWith successors : " ++
    withCommas (st.succ.map decimal) ++ ['\n']

/-- One state of a permissive strategy, `extensionPermissiveExplicitStrategy.hpp:144-158,198-200`. -/
def permText (st : PState) : List Char :=
  txt!"State " ++ decimal st.num ++ txt!" with rank " ++ decimal st.rank ++ ['\n'] ++ labelText st.label ++ ['\n'] ++
    (st.succ.map fun n => decimal n ++ ['\n']).flatten ++ ['\n']

/-- One state of a counterstrategy, `extensionExtractExplicitCounterstrategy.hpp:152-166,220-226,231` and, for a state without successors, lines 255-268 and 231. -/
def cstateText (st : CState) : List Char :=
  txt!"State " ++ decimal st.num ++ txt!" with rank (" ++ decimal st.rank.1 ++ [','] ++ decimal st.rank.2 ++ txt!") -> <" ++ labelText st.label ++ txt!">\n\t" ++
    (match st.succ with
     | some succ => txt!"With successors : " ++ withCommas (succ.map decimal)
     | none => txt!"With no successors.") ++ ['\n']

/-- One state in the JSON format, without the comma after it, `extensionExtractExplicitStrategy.hpp:157-158,163-178,225-239`. -/
def stateJson (st : PState) : List Char :=
  ['"'] ++ decimal st.num ++ txt!"\": {\n\t\"rank\": " ++ decimal st.rank ++ txt!",\n\t\"state\": [" ++ withCommas (st.label.map fun l => bitText l.2) ++
    txt!"],\n\t\"trans\": [" ++ withCommas (st.succ.map decimal) ++ txt!"]\n}"

/-- The states in the JSON format, `extensionExtractExplicitStrategy.hpp:238-246`: there is a comma unless `todoList` is empty, which is the case exactly after
the last state. -/
def statesJson : List PState → List Char
  | [] => []
  | [st] => stateJson st ++ txt!"\n\n"
  | st :: st' :: rest => stateJson st ++ txt!",\n\n" ++ statesJson (st' :: rest)

/-- The JSON format, `extensionExtractExplicitStrategy.hpp:124-141,238-254`. -/
def jsonListing (names : List Name) (sts : List PState) : List Char :=
  txt!"{\"version\": 0,\n \"slugs\": \"0.0.1\",\n\n \"variables\": [" ++ withCommas (names.map fun x => ['"'] ++ x ++ ['"']) ++ txt!"],\n\n \"nodes\": {\n" ++
    statesJson sts ++ txt!"}}\n"

/-- The formats. -/
inductive Format where
  | plain
  | json
  | permissive
  deriving DecidableEq, Repr

/-- What is printed for a strategy. -/
def listing (names : List Name) (sts : List PState) : Format → List Char
  | .plain => (sts.map stateText).flatten
  | .json => jsonListing names sts
  | .permissive => (sts.map permText).flatten

/-- The names of the variables that inherit the type `Pre`. -/
def preNames (tab : VarTable) : List Name := (varsOfType tab.types .pre).map fun k => tab.names.getD k []

/-- The text that is printed by a run with `--explicitStrategy`, with `--jsonOutput`, or with `--extractExplicitPermissiveStrategy`; `none` if nothing is
printed, or not everything. -/
def runPrinted (B : Type) [DecidableEq B] [BddLib B] (alg : Algorithm) (robotics recovery : Bool) (fmt : Format) (cap : Nat) (order : List Char → Bool)
    (fuel : Nat) (text : List Char) : Option (List Char) :=
  match initContext (B := B) cap order text, runExplicit B alg robotics (decide (fmt = .permissive)) recovery cap order fuel text with
  | .ok (tab, _), .strategy sts => some (listing (preNames tab) sts fmt)
  | _, _ => none

/-- The text that is printed by a run with `--counterStrategy`. -/
def runCounterPrinted (B : Type) [DecidableEq B] [BddLib B] (robotics : Bool) (cap : Nat) (order : List Char → Bool) (fuel : Nat) (text : List Char) :
    Option (List Char) :=
  match runCounter B robotics cap order fuel text with
  | .counterstrategy sts => some (sts.map cstateText).flatten
  | _ => none

end Slugs.Model
