import Verif.Spec.Simulator
import Verif.Model.Structured

/-!
# Model of `tools/cursesSimulator.py`

The simulator talks to `slugs --interactiveStrategy`.  It is modelled as a function of the keys pressed and of the exchanges of the session with slugs.
Not modelled: what is drawn apart from the table (border, help texts, colours), and the texts written to standard error.
-/

namespace Slugs.Model.Curses

open Slugs.Spec

/-! ### The variables -/

/-- `dict[k] = b` in Python.  Simplification: the dictionary is a list of pairs; the order of the entries is of no importance to the program. -/
def insert (d : List (Nat × Nat)) (k b : Nat) : List (Nat × Nat) := d.filter (fun e => e.1 != k) ++ [(k, b)]

/-- How `a.split("@")` and `suffix.split(".")` divide the name of a proposition (tools/cursesSimulator.py:78-84, 93-95, 106). -/
inductive NameParts where
  | master (var : List Char) (lo hi : Int)
  | slave (var : List Char) (number : Nat)
  | plain (name : List Char)
  deriving DecidableEq, Repr

/-- The parts of a name; `none`: the program stops, because there is another number of parts, because of `assert varNum=="0"`, or because a part is not a number (for
a negative number of a bit: later, when it is used as the width of a shift). -/
def nameParts (a : List Char) : Option NameParts :=
  if '@' ∈ a then
    match Structured.split ['@'] a with
    | [x, suffix] =>
      if '.' ∈ suffix then
        match Structured.split ['.'] suffix with
        | [k, lo, hi] => if k = ['0'] then do some (.master x (← Structured.toInt lo) (← Structured.toInt hi)) else none
        | _ => none
      else do
        let k ← Structured.toInt suffix
        if 0 ≤ k then some (.slave x k.toNat) else none
    | _ => none
  else some (.plain a)

def masterOf (isOutput : Bool) (x : NameParts × Nat) : Option ShownVar :=
  match x.1 with
  | .master var lo hi => some ⟨var, lo, hi, [(0, x.2)], isOutput⟩
  | _ => none

/-- First pass (tools/cursesSimulator.py:76-90): the integer variables, by their first bits. -/
def masters (isOutput : Bool) (start : Nat) (source : List NameParts) : List ShownVar := (source.zipIdx start).filterMap (masterOf isOutput)

/-- The last variable with this name, and 0 if there is none: `indexFound = False`, which is not `None` but a number that can be used as an index
(tools/cursesSimulator.py:97-105). -/
def indexFound (var : List Char) (vars : List ShownVar) : Nat :=
  (vars.zipIdx.foldl (fun found x => if x.1.name = var then some x.2 else found) none).getD 0

/-- One name in the second pass (tools/cursesSimulator.py:92-112).  `none`: the program stops because of `assert` or an index that is out of range. -/
def second (isOutput : Bool) (vars : List ShownVar) (x : NameParts × Nat) : Option (List ShownVar) :=
  match x.1 with
  | .master .. => some vars
  | .plain name => some (vars ++ [⟨name, 0, 1, [(0, x.2)], isOutput⟩])
  | .slave var number =>
    let j := indexFound var vars
    match vars[j]? with
    | none => none
    | some v => if v.isOutput = isOutput then some (vars.set j { v with bits := insert v.bits number x.2 }) else none

/-- tools/cursesSimulator.py:75-112 for one of the two lists of names.  Simplification: all names are divided into their parts beforehand. -/
def readNames (isOutput : Bool) (start : Nat) (vars : List ShownVar) (source : List (List Char)) : Option (List ShownVar) := do
  let parts ← source.mapM nameParts
  (parts.zipIdx start).foldlM (second isOutput) (vars ++ masters isOutput start parts)

/-- tools/cursesSimulator.py:69-112. -/
def readTable (inputs outputs : List (List Char)) : Option (List ShownVar) := do
  readNames true inputs.length (← readNames false 0 [] inputs) outputs

/-! ### Values and strings of bits -/

/-- A value together with the reason for it: 0 chosen by the computer, 1 edited by hand, 2 to 4 forced (tools/cursesSimulator.py:13-24). -/
structure Cell where
  val : Int
  tag : Nat
  deriving DecidableEq, Repr

def edited : Nat := 1

/-- `(encodedValue & (1 << a)) > 0` (tools/cursesSimulator.py:128), also for negative numbers (two's complement). -/
def bitOf (e : Int) (a : Nat) : Bool := e / 2 ^ a % 2 == 1

/-- The entries of the dictionary `result` (tools/cursesSimulator.py:120-131, with `all` :135-144). -/
def entries (all : Bool) (vars : List ShownVar) (cells : List Cell) : List (Nat × Char) :=
  (vars.zip cells).flatMap fun x => x.1.bits.map fun ab =>
    (ab.2, if all = false ∧ x.2.tag ≠ edited then '.' else if bitOf (x.2.val - x.1.lo) ab.1 then '1' else '0')

/-- `"".join([result[a] for a in xrange(0,len(result))])` (tools/cursesSimulator.py:132, 145); `none` for a `KeyError`. -/
def encode (all : Bool) (vars : List ShownVar) (cells : List Cell) : Option (List Char) :=
  let es := entries all vars cells
  (List.range (es.map Prod.fst).dedup.length).mapM fun k => es.reverse.lookup k

/-- The branches on a letter (tools/cursesSimulator.py:157-179): the bit and the reason. -/
def letter : Char → Option (Bool × Nat)
  | 'A' => some (true, 2)
  | 'a' => some (false, 2)
  | 'G' => some (true, 3)
  | 'g' => some (false, 3)
  | 'S' => some (true, 4)
  | 's' => some (false, 4)
  | '1' => some (true, 0)
  | '0' => some (false, 0)
  | _ => none

/-- One variable (tools/cursesSimulator.py:151-180); `none` for `assert False`, an index out of range and `min` of the empty set. -/
def decodeVar (letters : List Char) (v : ShownVar) : Option Cell := do
  let found ← v.bits.mapM fun ab => do
    let (b, t) ← letter (← letters[ab.2]?)
    pure (if b = true then (2 : Int) ^ ab.1 else 0, t)
  let tag ← (found.map Prod.snd).min?
  pure ⟨v.lo + (found.map Prod.fst).sum, tag⟩

/-- `parseBinaryStateTupleIntoStructuredTuple` (tools/cursesSimulator.py:149-181). -/
def decode (vars : List ShownVar) (letters : List Char) : Option (List Cell) := vars.mapM (decodeVar letters)

/-! ### The state -/

/-- The flags of a trace element. -/
structure Flags where
  a : Bool := false
  g : Bool := false
  l : Bool := false
  oob : Bool := false
  deriving DecidableEq, Repr

def Flags.any (f : Flags) : Bool := f.a || f.g || f.l || f.oob

/-- Entry number `i` of `trace`, `traceGoalNumbers` and `traceFlags`. -/
structure Entry where
  cells : List Cell
  goals : Nat × Nat := (0, 0)
  flags : Flags := {}
  deriving DecidableEq, Repr

/-- The variables of the main loop.  Simplifications: `trace`, `traceGoalNumbers` and `traceFlags`, which always have the same length of at least 1, are one list,
and its last entry is kept apart; of `cursorEditPosition` only whether it is `None` is kept (the number only says where the cursor is drawn); `drawn` is
`element+minTraceElement` after the last time that the table was drawn. -/
structure St where
  past : List Entry
  last : Entry
  post : List (List Cell) := []
  cursor : Nat := 0
  editing : Bool := false
  help : Nat := 0
  drawn : Option Nat := none
  deriving DecidableEq, Repr

def St.all (st : St) : List Entry := st.past ++ [st.last]

/-- `unfixedState` (tools/cursesSimulator.py:216-219). -/
def unfixed (vars : List ShownVar) : List Cell := vars.map fun v => ⟨v.lo, 0⟩

/-- tools/cursesSimulator.py:220-222, 243-246. -/
def start (vars : List ShownVar) : St := { past := [], last := { cells := unfixed vars } }

/-! ### Updating the last entry -/

/-- Merging the parsed element into the trace (tools/cursesSimulator.py:290-294, 335-339); `none` if an `assert` fails. -/
def merge : List Cell → List Cell → Option (List Cell)
  | c :: cs, d :: ds => do
    let rest ← merge cs ds
    if c.tag = edited then (if c.val = d.val then some (c :: rest) else none) else some (d :: rest)
  | [], _ => some []
  | _ :: _, [] => none

/-- The request sent (tools/cursesSimulator.py:253-259, 296-304).  `none`: none is sent; `some none`: the program stops with a `KeyError`.
Simplification: the request is the command with its arguments, not the text that is written. -/
def request (vars : List ShownVar) (st : St) : Option (Option Request) :=
  if st.last.flags.oob then none
  else match st.past.getLast? with
    | none => some ((encode false vars st.last.cells).map .completeInit)
    | some e => some (do
        let src ← encode true vars e.cells
        let typed ← encode false vars st.last.cells
        pure (.strategyTransition src typed e.goals.1 e.goals.2))

/-- The answer to `XCOMPLETEINIT` (tools/cursesSimulator.py:260-294).  Simplification: the answer is given by its parts, not as lines of text. -/
def absorbInit (vars : List ShownVar) (st : St) (answer : Answer Unit) : Option St :=
  let f := { st.last.flags with a := false, g := false, l := false }
  match answer with
  | .failAssumptions => some { st with last := { st.last with flags := { f with a := true } } }
  | .failGuarantees _ _ => some { st with last := { st.last with flags := { f with g := true } } }
  | .forcedNonWinning => some { st with last := { st.last with flags := { f with l := true } } }
  | .found letters _ => do
    let cells ← merge st.last.cells (← decode vars letters)
    pure { st with last := { st.last with cells := cells, flags := f } }

/-- The answer to `XSTRATEGYTRANSITION` (tools/cursesSimulator.py:305-343), likewise.  Here the values are also taken over after "FAILGUARANTEES". -/
def absorbTrans (vars : List ShownVar) (st : St) (answer : Answer (Nat × Nat)) : Option St :=
  let f := { st.last.flags with a := false, g := false, l := false }
  match answer with
  | .failAssumptions => some { st with last := { st.last with flags := { f with a := true } } }
  | .forcedNonWinning => some { st with last := { st.last with flags := { f with l := true } } }
  | .failGuarantees letters next => do
    let cells ← merge st.last.cells (← decode vars letters)
    pure { st with last := { cells := cells, goals := next, flags := { f with g := true } } }
  | .found letters next => do
    let cells ← merge st.last.cells (← decode vars letters)
    pure { st with last := { cells := cells, goals := next, flags := f } }

/-- What becomes of the program. -/
inductive Outcome where
  /-- it goes on; the exchanges with slugs that are still to come -/
  | goesOn (st : St) (rest : List Exchange)
  /-- an exception or a failed `assert` -/
  | crashed
  /-- slugs does not answer: the session is over, or the next exchange belongs to another request -/
  | noAnswer
  /-- the key `q` -/
  | quit
  deriving DecidableEq, Repr

/-- "Update Trace" (tools/cursesSimulator.py:250-343). -/
def update (vars : List ShownVar) (st : St) (es : List Exchange) : Outcome :=
  match request vars st with
  | none => .goesOn st es
  | some none => .crashed
  | some (some r) =>
    match r, es with
    | .completeInit typed, .completeInit typed' answer :: rest =>
      if typed' = typed then (match absorbInit vars st answer with | some st => .goesOn st rest | none => .crashed) else .noAnswer
    | .strategyTransition src typed la lg, .strategyTransition src' typed' la' lg' answer :: rest =>
      if src' = src ∧ typed' = typed ∧ la' = la ∧ lg' = lg then (match absorbTrans vars st answer with | some st => .goesOn st rest | none => .crashed)
      else .noAnswer
    | _, _ => .noAnswer

/-- "Draw interface" (tools/cursesSimulator.py:346-476), as far as it matters: the table is drawn if the terminal is large enough and no help text is on. -/
def draw (large : Bool) (st : St) : St := if large ∧ st.help = 0 then { st with drawn := some st.past.length } else st

/-! ### Keys -/

inductive Key where
  | up | down | left | right
  | digit (n : Fin 10)
  | backspace | quit | help | other
  deriving DecidableEq, Repr

/-- `MAX_OVERALL_NUMBER` (tools/cursesSimulator.py:11). -/
def maxOverall : Int := 999999

def St.setCell (st : St) (c : Cell) : St := { st with last := { st.last with cells := st.last.cells.set st.cursor c } }

def St.setOob (st : St) (b : Bool) : St := { st with last := { st.last with flags := { st.last.flags with oob := b } } }

/-- "Truncate all currently edited numbers to their limits when moving the cursor" (tools/cursesSimulator.py:483-492). -/
def truncate (v : ShownVar) (c : Cell) : Cell :=
  let c := if c.val < v.lo then ⟨v.lo, 0⟩ else c
  if c.val > v.hi then ⟨v.hi, 0⟩ else c

def leave (v : ShownVar) (c : Cell) (st : St) : St := ({ st with editing := false }.setCell (truncate v c)).setOob false

/-- `KEY_RIGHT` (tools/cursesSimulator.py:503-511). -/
def goRight (vars : List ShownVar) (st : St) : St :=
  if st.last.flags.any then st
  else match st.post with
    | c :: post => { st with past := st.past ++ [st.last], last := { cells := c }, post := post }
    | [] => { st with past := st.past ++ [st.last], last := { cells := unfixed vars } }

/-- `KEY_LEFT` (tools/cursesSimulator.py:512-517). -/
def goLeft (st : St) : St :=
  match st.past.getLast? with
  | none => st
  | some e => { st with past := st.past.dropLast, last := e, post := st.last.cells :: st.post }

/-- The new value after a digit (`some`) or backspace, and whether the cursor is still inside of the number (tools/cursesSimulator.py:530-545). -/
def newCell (v : ShownVar) (c : Cell) (editing : Bool) : Option (Fin 10) → Cell × Bool
  | some n => if editing then (⟨min maxOverall (c.val * 10 + n), edited⟩, true) else (⟨n, edited⟩, true)
  | none => if editing = false ∨ c.val = 0 then (⟨v.lo, 0⟩, false) else (⟨c.val / 10, edited⟩, true)

/-- Digits and backspace (tools/cursesSimulator.py:522-553).  `none`: the program stops, because the table has not been drawn yet or what was drawn last does not
exist any more. -/
def edit (v : ShownVar) (c : Cell) (key : Option (Fin 10)) (st : St) : Option St := do
  let e ← st.all[← st.drawn]?
  let d ← e.cells[st.cursor]?
  if d.tag = edited ∨ ¬ (e.flags.a ∨ e.flags.g ∨ e.flags.l) then
    let new := newCell v c st.editing key
    pure (({ st with editing := new.2 }.setCell new.1).setOob (decide (new.1.val < v.lo ∨ new.1.val > v.hi)))
  else pure st

/-- "Process key presses" (tools/cursesSimulator.py:478-559); `none`: the program stops with an exception. -/
def press (vars : List ShownVar) (key : Key) (st : St) : Option St := do
  let v ← vars[st.cursor]?
  let c ← st.last.cells[st.cursor]?
  match key with
  | .down => pure (let st := leave v c st; if st.cursor + 1 < vars.length then { st with cursor := st.cursor + 1 } else st)
  | .up => pure (let st := leave v c st; { st with cursor := st.cursor - 1 })
  | .right => pure (goRight vars (leave v c st))
  | .left => pure (goLeft (leave v c st))
  | .digit n => edit v c (some n) st
  | .backspace => edit v c none st
  | .help => pure { st with help := (st.help + 1) % 3 }
  | .quit => pure st
  | .other => pure st

/-- The main loop (tools/cursesSimulator.py:248-559) until the table is shown after the given keys; with each key comes whether the terminal was large enough
before it was pressed. -/
def run (vars : List ShownVar) : List (Bool × Key) → St → List Exchange → Outcome
  | [], st, es => update vars st es
  | (large, key) :: keys, st, es =>
    match update vars st es with
    | .goesOn st es =>
      if key = .quit then .quit
      else match press vars key (draw large st) with
        | some st => run vars keys st es
        | none => .crashed
    | o => o

/-- The columns of the table (tools/cursesSimulator.py:417-467; without the restriction to the last five). -/
def St.columns (st : St) : List Column := st.all.map fun e => ⟨e.cells.map Cell.val, e.goals, e.flags.any⟩

end Slugs.Model.Curses
