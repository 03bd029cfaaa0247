import Verif.Spec.Symbolic
import Mathlib.Data.List.Induction

/-!
What is visible of a session with `--interactiveStrategy` (`/repo/README.md`, option `--interactiveStrategy`): the requests
and the answers.
-/

namespace Slugs.Spec

/-- Values with the names of the variables. -/
abbrev Label := List (Word × Bool)

/-- Answers to the requests that complete a position or a transition; `α` is what is printed in addition. -/
inductive Answer (α : Type) where
  /-- "FAILASSUMPTIONS" -/
  | failAssumptions
  /-- "FAILGUARANTEES", followed by letters -/
  | failGuarantees (letters : List Char) (more : α)
  /-- "FORCEDNONWINNING" -/
  | forcedNonWinning
  /-- letters -/
  | found (letters : List Char) (more : α)
  deriving DecidableEq, Repr

/-- One request and the answer to it. -/
inductive Exchange where
  | startPos (label : Label)
  /-- The values that were read, whether the first position is winning, whether the safety assumptions and guarantees hold, and the
  numbers of the liveness assumptions and guarantees that are satisfied, and of the goals whose strategy contains the transition. -/
  | checkTrans (src dst : Label) (winning env sys : Bool) (assumptions guarantees strategies : List Nat)
  | setPos (label : Label)
  /-- "The current position is undefined" -/
  | moveUndefined
  /-- "Error reading value. Aborting" -/
  | moveNoNumber
  /-- "Number too large. Aborting" -/
  | moveTooLarge
  /-- "There is no allowed next input!" -/
  | moveNoInput
  /-- "Error: Input not allowed here"; the numbers read for the inputs, whether a warning and a report of an internal error are printed -/
  | moveRefused (guarantee : Nat) (input : List (Word × Int)) (warning internal : Bool)
  | moved (guarantee : Nat) (input : List (Word × Int)) (output : Label) (warning : Bool) (assumptions guarantees strategies : List Nat)
  /-- `XMAKETRANS` and `XMAKETRANSRANDOM`: the characters read; "ERROR" (`none`), or the values of the inputs and outputs and a goal -/
  | makeTrans (random : Bool) (typed : List Char) (answer : Option (List Bool × Nat))
  | printInputs (names : List Word)
  | printOutputs (names : List Word)
  | getNumbers (assumptions guarantees : Nat)
  /-- `XGETINIT`: the values of the inputs and outputs and a goal -/
  | getInit (bits : List Bool) (goal : Nat)
  | completeInit (typed : List Char) (answer : Answer Unit)
  /-- `XSTRATEGYTRANSITION`: the characters read, the numbers read, the answer with the next numbers -/
  | strategyTransition (src forced : List Char) (assumption guarantee : Nat) (answer : Answer (Nat × Nat))
  /-- "Did not understand command" -/
  | unknown (command : List Char)
  deriving DecidableEq, Repr

/-- How a session ends. -/
inductive SessionEnd where
  /-- the program returns -/
  | quit
  /-- the program waits for a command forever although its input has been used up or cannot be read any more -/
  | hang
  /-- undefined behaviour -/
  | ub
  /-- the program ends with an error message -/
  | thrown
  deriving DecidableEq, Repr

variable {sp : SpecFile}

/-- The values at a position: the inputs, then the outputs, in the order of their declarations. -/
def bitsOf (sp : SpecFile) (p : Pos sp.In sp.Out) : List Bool := sp.inputs.attach.map p.1 ++ sp.outputs.attach.map p.2

/-- The position with the given values. -/
def posOfBits (sp : SpecFile) (bits : List Bool) : Pos sp.In sp.Out :=
  (fun x => bits.getD (sp.inputs.idxOf x.1) false, fun y => bits.getD (sp.inputs.length + sp.outputs.idxOf y.1) false)

/-- The position with the given label. -/
def posOfLabel (sp : SpecFile) (label : Label) : Pos sp.In sp.Out :=
  (fun x => label.lookup x.1 == some true, fun y => label.lookup y.1 == some true)

/-- The position with the given label of next values. -/
def posOfNextLabel (sp : SpecFile) (label : Label) : Pos sp.In sp.Out :=
  (fun x => label.lookup (prime x.1) == some true, fun y => label.lookup (prime y.1) == some true)

/-- The characters `0` and `1` agree with the values (other characters leave the value open). -/
def Fits (typed : List Char) (bits : List Bool) : Prop :=
  ∀ (k : Nat) (c : Char) (b : Bool), typed[k]? = some c → bits[k]? = some b → (c = '0' → b = false) ∧ (c = '1' → b = true)

/-- Numbers as values: other numbers than 0 stand for true. -/
def truths (input : List (Word × Int)) : Label := input.map fun e => (e.1, decide (e.2 ≠ 0))

/-- A possible first position that is winning for the system. -/
def Start (sp : SpecFile) (p : Pos sp.In sp.Out) : Prop := sp.game.initEnv p.1 ∧ sp.game.initSys p ∧ sp.game.SysWins p

open Classical in
/-- The positions passed through, most recent first, with the goals printed: a play starts with `SETPOS`, and with `STARTPOS` or
`XGETINIT`, if a possible first position is printed, and goes on with `XMAKETRANS` and `XMAKETRANSRANDOM`; `MOVE` starts a new play, if only the
numbers 0 and 1 are used. -/
noncomputable def follow (sp : SpecFile) (play : List (Pos sp.In sp.Out × Nat)) : Exchange → List (Pos sp.In sp.Out × Nat)
  | .startPos label => if Start sp (posOfLabel sp label) then [(posOfLabel sp label, 0)] else []
  | .setPos label => [(posOfLabel sp label, 0)]
  | .getInit bits goal => if Start sp (posOfBits sp bits) then [(posOfBits sp bits, goal)] else []
  | .moved _ input output .. =>
    if play ≠ [] ∧ ∀ e ∈ input, e.2 = 0 ∨ e.2 = 1 then [(posOfNextLabel sp (truths input ++ output), 0)] else []
  | .makeTrans _ _ (some (bits, goal)) => if play = [] then [] else (posOfBits sp bits, goal) :: play
  | _ => play

noncomputable def playOf (sp : SpecFile) (es : List Exchange) : List (Pos sp.In sp.Out × Nat) := es.foldl (follow sp) []

/-- The position at which a play started is winning for the system. -/
def FromWinning (sp : SpecFile) (play : List (Pos sp.In sp.Out × Nat)) : Prop := ∀ e, play.getLast? = some e → sp.game.SysWins e.1

/-! ### Strategies -/

/-- The number of liveness assumptions (a file without liveness assumptions has one, which always holds). -/
def SpecFile.hopes (sp : SpecFile) : Nat := max 1 sp.envLiveness.length

/-- A transition satisfies the liveness assumption with number `j`. -/
def SpecFile.Fulfils (sp : SpecFile) (j : Nat) (s t : Pos sp.In sp.Out) : Prop := ∀ A, sp.game.assumptions[j]? = some A → A s t

/-- How the current goal develops with a transition: it stays if it has not been reached, and otherwise moves on past a number of goals that
have all been reached. -/
def Advance (sp : SpecFile) (s t : Pos sp.In sp.Out) (j j' : Nat) : Prop :=
  (¬ sp.Reaches j s t → j' = j) ∧
  (sp.Reaches j s t → ∃ k, 1 ≤ k ∧ k ≤ sp.goals ∧ j' = (j + k) % sp.goals ∧ ∀ l < k, sp.Reaches ((j + l) % sp.goals) s t)

/-- `S j` are transitions with which the system pursues goal `j`: they are safe, there is one for every allowed input, and whoever uses them and
moves on to other goals as described satisfies the liveness objective. -/
structure SystemMoves (sp : SpecFile) (S : Nat → Pos sp.In sp.Out → Pos sp.In sp.Out → Prop) : Prop where
  safe : ∀ j < sp.goals, ∀ s t, S j s t → sp.game.safetySys s t ∧ sp.game.SysWins t
  total : ∀ j < sp.goals, ∀ s i, sp.game.SysWins s → sp.game.safetyEnv s i → ∃ o, S j s (i, o)
  live : ∀ (p : Nat → Pos sp.In sp.Out) (j : Nat → Nat), sp.game.SysWins (p 0) → (∀ n, j n < sp.goals) →
    (∀ n, sp.game.safetyEnv (p n) (p (n + 1)).1 ∧ S (j n) (p n) (p (n + 1)) ∧ Advance sp (p n) (p (n + 1)) (j n) (j (n + 1))) →
    sp.game.Live p

/-- How the number of the assumption to be satisfied next develops with a transition. -/
def AdvanceEnv (sp : SpecFile) (s t : Pos sp.In sp.Out) (j j' : Nat) : Prop :=
  (¬ sp.Fulfils j s t → j' = j) ∧
  (sp.Fulfils j s t → ∃ k, 1 ≤ k ∧ k ≤ sp.hopes ∧ j' = (j + k) % sp.hopes ∧ ∀ l < k, sp.Fulfils ((j + l) % sp.hopes) s t)

/-- `E j` are transitions with inputs with which the environment pursues liveness assumption `j` and keeps the system from winning: they are allowed,
whatever the system does, there is one in every position that is not winning for the system, and whoever uses them and moves on to other
assumptions as described makes the system violate the liveness objective. -/
structure EnvironmentMoves (sp : SpecFile) (E : Nat → Pos sp.In sp.Out → Pos sp.In sp.Out → Prop) : Prop where
  safe : ∀ j < sp.hopes, ∀ s t, E j s t → sp.game.safetyEnv s t.1 ∧ ∀ o, sp.game.safetySys s (t.1, o) → ¬ sp.game.SysWins (t.1, o)
  blind : ∀ j < sp.hopes, ∀ s i o o', E j s (i, o) → E j s (i, o')
  total : ∀ j < sp.hopes, ∀ s, ¬ sp.game.SysWins s → ∃ t, E j s t
  live : ∀ (p : Nat → Pos sp.In sp.Out) (j : Nat → Nat), (∀ n, j n < sp.hopes) →
    (∀ n, E (j n) (p n) (p (n + 1)) ∧ sp.game.safetySys (p n) (p (n + 1)) ∧ AdvanceEnv sp (p n) (p (n + 1)) (j n) (j (n + 1))) →
    ¬ sp.game.Live p

/-! ### Explanations by letters -/

/-- All elements of `P` have the same value with number `k`. -/
def FixedBit {W : Type} (bits : W → List Bool) (P : W → Prop) (k : Nat) : Prop :=
  ∀ w w', P w → P w' → (bits w)[k]? = (bits w')[k]?

open Classical in
/-- The letter for value number `k`, when it is `b`: the letter of the first set in which this value does not vary
(the capital letter if the value is true), and `0` or `1` if it varies in all of them. -/
noncomputable def letterOf {W : Type} (bits : W → List Bool) : List (Char × (W → Prop)) → Nat → Bool → Char
  | [], _, b => if b then '1' else '0'
  | (c, P) :: Ps, k, b => if FixedBit bits P k then (if b then c.toUpper else c) else letterOf bits Ps k b

/-- The letters for `w`. -/
noncomputable def lettersOf {W : Type} (bits : W → List Bool) (Ps : List (Char × (W → Prop))) (w : W) : List Char :=
  (bits w).mapIdx (letterOf bits Ps)

/-! ### The answers -/

/-- `XMAKETRANS` or `XMAKETRANSRANDOM`, unless the answer is "ERROR". -/
def Exchange.advances : Exchange → Bool
  | .makeTrans _ _ (some _) => true
  | _ => false


/-- The answer to `XCOMPLETEINIT` after the given characters. -/
def InitAnswer (sp : SpecFile) (realizable : Bool) (typed : List Char) (answer : Answer Unit) : Prop :=
  let P1 := fun p : Pos sp.In sp.Out => sp.game.initEnv p.1 ∧ Fits typed (bitsOf sp p)
  let guaranteed := fun p : Pos sp.In sp.Out => P1 p ∧ sp.game.initSys p
  let lost := fun p : Pos sp.In sp.Out => P1 p ∧ ¬ sp.game.SysWins p
  let won := fun p : Pos sp.In sp.Out => guaranteed p ∧ sp.game.SysWins p
  let spoiled := fun p : Pos sp.In sp.Out => lost p ∧ sp.game.initSys p
  match answer with
  | .failAssumptions => ¬ ∃ p, P1 p
  | .failGuarantees letters () =>
    if realizable then (¬ ∃ p, guaranteed p) ∧ ∃ p, P1 p ∧ letters = lettersOf (bitsOf sp) [('a', P1)] p
    else ((¬ ∃ p, lost p) ∧ (∀ p, Fits typed (bitsOf sp p)) ∧ ∃ p, P1 p ∧ letters = lettersOf (bitsOf sp) [('a', P1)] p) ∨
      ((¬ ∃ p, spoiled p) ∧ ∃ p, lost p ∧ letters = lettersOf (bitsOf sp) [('a', P1), ('s', lost)] p)
  | .forcedNonWinning =>
    if realizable then (∃ p, guaranteed p) ∧ ¬ ∃ p, won p
    else (∃ p, P1 p) ∧ (¬ ∃ p, lost p) ∧ ¬ ∀ p, Fits typed (bitsOf sp p)
  | .found letters () =>
    if realizable then ∃ p, won p ∧ letters = lettersOf (bitsOf sp) [('a', P1), ('g', guaranteed), ('s', won)] p
    else ∃ p, spoiled p ∧ letters = lettersOf (bitsOf sp) [('a', P1), ('s', lost), ('g', spoiled)] p

/-- A position from which the play can go on. -/
def GoesOn (sp : SpecFile) (s : Pos sp.In sp.Out) : Prop := ∃ t, sp.game.safetyEnv s t.1 ∧ sp.game.safetySys s t

open Classical in
/-- The next number after `j`, out of `n`, if the property with this number is to be `reached`. -/
noncomputable def after (n j : Nat) (reached : Prop) : Nat := if reached then (j + 1) % n else j % n

/-- The answer to `XSTRATEGYTRANSITION`.  `S` are the system's transitions for the given guarantee if the specification is realizable, and otherwise
the environment's for the given assumption; `numbers` relates the possible transitions and the chosen one to the numbers printed. -/
def TransitionAnswer (sp : SpecFile) (realizable : Bool) (S : Pos sp.In sp.Out → Pos sp.In sp.Out → Prop)
    (numbers : (Pos sp.In sp.Out × Pos sp.In sp.Out → Prop) → Pos sp.In sp.Out × Pos sp.In sp.Out → Nat × Nat → Prop)
    (src typed : List Char) (assumption guarantee : Nat) (answer : Answer (Nat × Nat)) : Prop :=
  let P1 := fun w : Pos sp.In sp.Out × Pos sp.In sp.Out =>
    Fits src (bitsOf sp w.1) ∧ sp.game.safetyEnv w.1 w.2.1 ∧ Fits typed (bitsOf sp w.2)
  let guaranteed := fun w => P1 w ∧ sp.game.safetySys w.1 w.2
  let forced := fun w => P1 w ∧ S w.1 w.2
  let both := fun w => if realizable then guaranteed w ∧ S w.1 w.2 else forced w ∧ sp.game.safetySys w.1 w.2
  match answer with
  | .failAssumptions => ¬ ∃ w, P1 w
  | .failGuarantees letters next =>
    next = (assumption % sp.hopes, guarantee % sp.goals) ∧
    if realizable then (¬ ∃ w, guaranteed w) ∧ ∃ w, P1 w ∧ letters = lettersOf (fun w => bitsOf sp w.2) [('a', P1)] w
    else (¬ ∃ w, both w) ∧ ∃ w, forced w ∧ letters = lettersOf (fun w => bitsOf sp w.2) [('a', P1), ('s', forced)] w
  | .forcedNonWinning => if realizable then (∃ w, guaranteed w) ∧ ¬ ∃ w, both w else (∃ w, P1 w) ∧ ¬ ∃ w, forced w
  | .found letters next =>
    ∃ w, both w ∧ ((∃ w', both w' ∧ GoesOn sp w'.2) → GoesOn sp w.2) ∧ numbers both w next ∧
      letters = lettersOf (fun w => bitsOf sp w.2)
        (if realizable then [('a', P1), ('g', guaranteed), ('s', both)] else [('a', P1), ('s', forced), ('g', both)]) w

/-- The numbers that should be printed: both go to the next one if the transition satisfies the property. -/
def RightNumbers (sp : SpecFile) (assumption guarantee : Nat) (w : Pos sp.In sp.Out × Pos sp.In sp.Out) (next : Nat × Nat) : Prop :=
  next = (after sp.hopes assumption (sp.Fulfils assumption w.1 w.2), after sp.goals guarantee (sp.Reaches guarantee w.1 w.2))

/-- The numbers that are printed: they go to the next one if the possible transitions to the same position are some, but not all of the
transitions that satisfy the property. -/
def PrintedNumbers (sp : SpecFile) (assumption guarantee : Nat) (P : Pos sp.In sp.Out × Pos sp.In sp.Out → Prop)
    (w : Pos sp.In sp.Out × Pos sp.In sp.Out) (next : Nat × Nat) : Prop :=
  let part := fun R : Pos sp.In sp.Out → Pos sp.In sp.Out → Prop =>
    (∀ s, P (s, w.2) → R s w.2) ∧ ∃ w', R w'.1 w'.2 ∧ ¬ (P w' ∧ w'.2 = w.2)
  next = (after sp.hopes assumption (part (sp.Fulfils assumption)), after sp.goals guarantee (part (sp.Reaches guarantee)))

/-- What `CHECKTRANS` and `MOVE` print about a transition. -/
def Described (sp : SpecFile) (S : Nat → Pos sp.In sp.Out → Pos sp.In sp.Out → Prop) (s t : Pos sp.In sp.Out)
    (assumptions guarantees strategies : List Nat) : Prop :=
  (∀ j, j ∈ assumptions ↔ j < sp.hopes ∧ sp.Fulfils j s t) ∧ (∀ j, j ∈ guarantees ↔ j < sp.goals ∧ sp.Reaches j s t) ∧
  ∀ j, j ∈ strategies ↔ j < sp.goals ∧ S j s t

/-- The answers given for a realizable specification, after the exchanges `past`. -/
def Right (sp : SpecFile) (S : Nat → Pos sp.In sp.Out → Pos sp.In sp.Out → Prop) (past : List Exchange) : Exchange → Prop
  | .startPos label => (label.map Prod.fst).Perm (sp.inputs ++ sp.outputs) ∧ ((∃ p, Start sp p) → Start sp (posOfLabel sp label))
  | .checkTrans src dst winning env sys assumptions guarantees strategies =>
    (src.map Prod.fst).Perm (sp.inputs ++ sp.outputs) ∧ (dst.map Prod.fst).Perm ((sp.inputs ++ sp.outputs).map prime) ∧
    let s := posOfLabel sp src
    let t := posOfNextLabel sp dst
    (winning = true ↔ sp.game.SysWins s) ∧ (env = true ↔ sp.game.safetyEnv s t.1) ∧ (sys = true ↔ sp.game.safetySys s t) ∧
      Described sp S s t assumptions guarantees strategies
  | .setPos label => (label.map Prod.fst).Perm (sp.inputs ++ sp.outputs)
  | .moveUndefined => ¬ (playOf sp past ≠ [] ∧ FromWinning sp (playOf sp past))
  | .moveNoNumber => True
  | .moveTooLarge => True
  | .moveNoInput => ∀ p k rest, playOf sp past = (p, k) :: rest → ¬ ∃ i, sp.game.safetyEnv p i
  | .moveRefused guarantee input warning internal =>
    guarantee < sp.goals ∧ input.map Prod.fst = sp.inputs.map prime ∧ internal = !warning ∧
    ∀ p k rest, playOf sp past = (p, k) :: rest →
      let i := (posOfNextLabel sp (truths input)).1
      (warning = true ↔ ¬ sp.game.safetyEnv p i) ∧ ¬ ∃ o, S guarantee p (i, o)
  | .moved guarantee input output warning assumptions guarantees strategies =>
    guarantee < sp.goals ∧ input.map Prod.fst = sp.inputs.map prime ∧ output.map Prod.fst = sp.outputs.map prime ∧
    ∀ p k rest, playOf sp past = (p, k) :: rest →
      let t := posOfNextLabel sp (truths input ++ output)
      (warning = true ↔ ¬ sp.game.safetyEnv p t.1) ∧ S guarantee p t ∧ Described sp S p t assumptions guarantees strategies
  | .makeTrans _ typed answer =>
    typed.length = sp.inputs.length ∧
    ∀ p k rest, playOf sp past = (p, k) :: rest → FromWinning sp (playOf sp past) →
      match answer with
      | none => ¬ ∃ t : Pos sp.In sp.Out, sp.game.safetyEnv p t.1 ∧ Fits typed (bitsOf sp t)
      | some (bits, goal) => ∃ t, bits = bitsOf sp t ∧ sp.game.safetyEnv p t.1 ∧ Fits typed (bitsOf sp t) ∧
        ∃ j < sp.goals, (rest ≠ [] → j = k) ∧ ((∀ x ∈ past, x.advances = false) → j = 0) ∧ S j p t ∧ goal < sp.goals ∧ Advance sp p t j goal
  | .printInputs names => names = sp.inputs
  | .printOutputs names => names = sp.outputs
  | .getNumbers assumptions guarantees => assumptions = sp.hopes ∧ guarantees = sp.goals
  | .getInit bits goal => goal = 0 ∧ ((∃ p, Start sp p) → ∃ p, Start sp p ∧ bits = bitsOf sp p)
  | .completeInit typed answer => typed.length = sp.inputs.length + sp.outputs.length ∧ InitAnswer sp true typed answer
  | .strategyTransition src typed assumption guarantee answer =>
    src.length = sp.inputs.length + sp.outputs.length ∧ typed.length = sp.inputs.length + sp.outputs.length ∧
    TransitionAnswer sp true (S guarantee) (PrintedNumbers sp assumption guarantee) src typed assumption guarantee answer
  | .unknown _ => True

/-- A possible first position that is not winning for the system. -/
def LostStart (sp : SpecFile) (p : Pos sp.In sp.Out) : Prop := sp.game.initEnv p.1 ∧ sp.game.initSys p ∧ ¬ sp.game.SysWins p

/-- The answers given for an unrealizable specification (nothing is said about `MOVE` and `XMAKETRANSRANDOM`, which are meant for realizable ones). -/
def RightLost (sp : SpecFile) (E : Nat → Pos sp.In sp.Out → Pos sp.In sp.Out → Prop) : Exchange → Prop
  | .startPos label =>
    (label.map Prod.fst).Perm (sp.inputs ++ sp.outputs) ∧ ((∃ p, LostStart sp p) → LostStart sp (posOfLabel sp label))
  | .checkTrans src dst winning env sys assumptions guarantees strategies =>
    (src.map Prod.fst).Perm (sp.inputs ++ sp.outputs) ∧ (dst.map Prod.fst).Perm ((sp.inputs ++ sp.outputs).map prime) ∧
    let s := posOfLabel sp src
    let t := posOfNextLabel sp dst
    (winning = true ↔ ¬ sp.game.SysWins s) ∧ (env = true ↔ sp.game.safetyEnv s t.1) ∧ (sys = true ↔ sp.game.safetySys s t) ∧
      Described sp E s t assumptions guarantees strategies
  | .setPos label => (label.map Prod.fst).Perm (sp.inputs ++ sp.outputs)
  | .printInputs names => names = sp.inputs
  | .printOutputs names => names = sp.outputs
  | .getNumbers assumptions guarantees => assumptions = sp.hopes ∧ guarantees = sp.goals
  | .getInit bits _ => (∃ p, LostStart sp p) → ∃ p, LostStart sp p ∧ bits = bitsOf sp p
  | .completeInit typed answer => typed.length = sp.inputs.length + sp.outputs.length ∧ InitAnswer sp false typed answer
  | .strategyTransition src typed assumption guarantee answer =>
    src.length = sp.inputs.length + sp.outputs.length ∧ typed.length = sp.inputs.length + sp.outputs.length ∧
    TransitionAnswer sp false (E assumption) (PrintedNumbers sp assumption guarantee) src typed assumption guarantee answer
  | .makeTrans random .. => random = true
  | _ => True

/-! ### Requests -/

/-- The requests (without `MOVE`). -/
inductive Request where
  | startPos
  | checkTrans (src dst : List Nat)
  | setPos (values : List Nat)
  | makeTrans (random : Bool) (typed : List Char)
  | printInputs
  | printOutputs
  | getNumbers
  | getInit
  | completeInit (typed : List Char)
  | strategyTransition (src typed : List Char) (assumption guarantee : Nat)

def Request.name : Request → List Char
  | .startPos => txt!"STARTPOS"
  | .checkTrans .. => txt!"CHECKTRANS"
  | .setPos _ => txt!"SETPOS"
  | .makeTrans false _ => txt!"XMAKETRANS"
  | .makeTrans true _ => txt!"XMAKETRANSRANDOM"
  | .printInputs => txt!"XPRINTINPUTS"
  | .printOutputs => txt!"XPRINTOUTPUTS"
  | .getNumbers => txt!"XGETNOFLIVENESSPROPERTIES"
  | .getInit => txt!"XGETINIT"
  | .completeInit _ => txt!"XCOMPLETEINIT"
  | .strategyTransition .. => txt!"XSTRATEGYTRANSITION"

/-- Characters, with white space in between as desired. -/
inductive CharsText : List Char → List Char → Prop
  | nil : CharsText [] []
  | cons {g cs t : List Char} {c : Char} : (∀ x ∈ g, isSpace x = true) → isSpace c = false → CharsText cs t → CharsText (c :: cs) (g ++ c :: t)

/-- Numbers, with white space between them. -/
inductive NumbersText : List Nat → List Char → Prop
  | nil : NumbersText [] []
  | cons {g ds t : List Char} {ns : List Nat} : (∀ x ∈ g, isSpace x = true) → ds ≠ [] → (∀ x ∈ ds, isDigit x = true) →
      (∀ x, t.head? = some x → isDigit x = false) → NumbersText ns t → NumbersText (digitsVal ds :: ns) (g ++ ds ++ t)

/-- The text after the line with the command. -/
def Request.Args : Request → List Char → Prop
  | .checkTrans src dst => NumbersText (src ++ dst)
  | .setPos values => NumbersText values
  | .makeTrans _ typed => CharsText typed
  | .completeInit typed => CharsText typed
  | .strategyTransition src typed assumption guarantee => fun t =>
    ∃ t1 t2, t = t1 ++ t2 ∧ CharsText (src ++ typed) t1 ∧ NumbersText [assumption, guarantee] t2
  | _ => fun t => t = []

/-- A request as it is typed: a line with the name of the command, the text after it and the end of the line. -/
def Request.Typed (r : Request) (t : List Char) : Prop :=
  ∃ line args, t = line ++ '\n' :: (args ++ ['\n']) ∧ '\n' ∉ line ∧ (trim line).map Char.toUpper = r.name ∧ r.Args args

/-- What comes after the last request: nothing, or a line with one of the two commands that end the session, followed by anything. -/
def Ending (t : List Char) : Prop :=
  t = [] ∨ ∃ line rest, t = line ++ '\n' :: rest ∧ '\n' ∉ line ∧ ((trim line).map Char.toUpper = txt!"QUIT" ∨ (trim line).map Char.toUpper = txt!"EXIT")

/-- The numbers of values are right, and the numbers are in range. -/
def Request.Suits (sp : SpecFile) : Request → Prop
  | .checkTrans src dst => src.length = sp.inputs.length + sp.outputs.length ∧ dst.length = sp.inputs.length + sp.outputs.length ∧
      ∀ n ∈ src ++ dst, n < 2 ^ 31
  | .setPos values => values.length = sp.inputs.length + sp.outputs.length ∧ ∀ n ∈ values, n < 2 ^ 31
  | .makeTrans _ typed => typed.length = sp.inputs.length
  | .completeInit typed => typed.length = sp.inputs.length + sp.outputs.length
  | .strategyTransition src typed assumption guarantee => src.length = sp.inputs.length + sp.outputs.length ∧
      typed.length = sp.inputs.length + sp.outputs.length ∧ assumption < sp.hopes ∧ guarantee < sp.goals ∧ assumption < 2 ^ 32 ∧ guarantee < 2 ^ 32
  | _ => True

/-- The requests that are available: `XMAKETRANS` and `XMAKETRANSRANDOM` if the specification is realizable, and `CHECKTRANS` if it is realizable or there are
not more liveness guarantees than liveness assumptions. -/
def Available (sp : SpecFile) (realizable : Prop) : Request → Prop
  | .checkTrans .. => realizable ∨ sp.goals ≤ sp.hopes
  | .makeTrans .. => realizable
  | _ => True

/-- The values of a label are the given numbers (other numbers than 0 stand for true). -/
def HasValues (label : Label) (values : List Nat) : Prop := label.map Prod.snd = values.map fun n => decide (n ≠ 0)

/-- The exchange belongs to the request. -/
def Request.Answered : Request → Exchange → Prop
  | .startPos, .startPos _ => True
  | .checkTrans src dst, .checkTrans src' dst' .. => HasValues src' src ∧ HasValues dst' dst
  | .setPos values, .setPos label => HasValues label values
  | .makeTrans random typed, .makeTrans random' typed' _ => random' = random ∧ typed' = typed
  | .printInputs, .printInputs _ => True
  | .printOutputs, .printOutputs _ => True
  | .getNumbers, .getNumbers .. => True
  | .getInit, .getInit .. => True
  | .completeInit typed, .completeInit typed' _ => typed' = typed
  | .strategyTransition src typed la lg, .strategyTransition src' typed' la' lg' _ => src' = src ∧ typed' = typed ∧ la' = la ∧ lg' = lg
  | _, _ => False

end Slugs.Spec
