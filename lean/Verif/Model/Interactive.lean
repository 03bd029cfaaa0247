import Verif.Model.Counter
import Verif.Model.Stream
import Verif.Spec.Interactive

/-!
Model of `extensionInteractiveStrategy.hpp`.

Not modelled: the dot files, the messages to `std::cerr`, and the punctuation and fixed texts around what is printed (a session is a
list of `Exchange`s).
-/

namespace Slugs.Model

open Slugs.Spec (Exchange Answer SessionEnd Label isSpace isDigit digitsVal)

variable {B : Type} [DecidableEq B]

/-! ### Standard input -/

/-- `std::cin`: the characters not yet read and two state bits.  This and the following functions model library behaviour (libstdc++). -/
structure Stdin where
  chars : List Char
  eof : Bool
  fail : Bool
  deriving DecidableEq, Repr

/-- `std::cin.good()`: reading only starts in this case. -/
def Stdin.good (i : Stdin) : Bool := !i.eof && !i.fail

/-- What reading a command yields. -/
inductive CommandRead where
  | quit
  | hang
  | line (l : List Char) (i : Stdin)

/-- The loop `while (command=="")`, `extensionInteractiveStrategy.hpp:146-150`.  Empty lines are skipped.  If the last line does not end with a
newline character, `getline` reaches the end of the input and the program returns.  If reading has failed before, `getline` does nothing and
the end is never reached. -/
def readCommand (i : Stdin) : CommandRead :=
  if i.eof then .quit
  else if i.fail then .hang
  else
    let s := i.chars.dropWhile (fun c => c == '\n')
    match s.dropWhile (fun c => c != '\n') with
    | [] => .quit
    | _ :: rest => .line (s.takeWhile (fun c => c != '\n')) { chars := rest, eof := false, fail := false }

/-- `char c; std::cin >> c`, e.g. `extensionInteractiveStrategy.hpp:429-430`.  `none`: nothing is read, so that `c` is indeterminate. -/
def readChar (i : Stdin) : Option (Char × Stdin) :=
  if i.good then
    match i.chars.dropWhile isSpace with
    | [] => none
    | c :: rest => some (c, { chars := rest, eof := false, fail := false })
  else none

/-- What reading a number yields. -/
inductive NumRead where
  /-- the variable keeps its value -/
  | untouched
  | noDigits
  | value (neg : Bool) (n : Nat)
  deriving DecidableEq, Repr

/-- Reading a decimal number. -/
def readNumber (i : Stdin) : NumRead × Stdin :=
  if i.good then
    match i.chars.dropWhile isSpace with
    | [] => (.untouched, { chars := [], eof := true, fail := true })
    | c :: cs =>
      let neg := c == '-'
      let s := if c == '-' || c == '+' then cs else c :: cs
      let rest := s.dropWhile isDigit
      if (s.takeWhile isDigit).isEmpty then (.noDigits, { chars := rest, eof := rest.isEmpty, fail := true })
      else (.value neg (digitsVal (s.takeWhile isDigit)), { chars := rest, eof := rest.isEmpty, fail := false })
  else (.untouched, { i with fail := true })

/-- `int value; std::cin >> value`, e.g. `extensionInteractiveStrategy.hpp:181-182`; `none` if `std::cin.fail()` afterwards. -/
def readInt (i : Stdin) : Option Int × Stdin :=
  match readNumber i with
  | (.value neg n, i') =>
    if n ≤ 2 ^ 31 - 1 ∨ (neg ∧ n = 2 ^ 31) then (some (if neg then -n else n), i') else (none, { i' with fail := true })
  | (_, i') => (none, i')

/-- `unsigned int u; std::cin >> u`, e.g. `extensionInteractiveStrategy.hpp:306-307,848-851`; `none` if `u` is indeterminate afterwards.  If no digit is
found, the value is 0, and if the number is too large, it is the largest one. -/
def readUnsignedInt (i : Stdin) : Option Nat × Stdin :=
  match readNumber i with
  | (.untouched, i') => (none, i')
  | (.noDigits, i') => (some 0, i')
  | (.value neg n, i') =>
    if 2 ^ 32 ≤ n then (some (2 ^ 32 - 1), { i' with fail := true })
    else (some (if neg then (2 ^ 32 - n) % 2 ^ 32 else n), i')

/-! ### The data of a session -/

/-- The variables of the types `PreInput`, `PreOutput`, `PostInput`, `PostOutput`, `Pre` and `Post` with their names, in the order of the variable
table. -/
structure IVars (B : Type) where
  preIn : List (Name × B)
  preOut : List (Name × B)
  postIn : List (Name × B)
  postOut : List (Name × B)
  pre : List (Name × B)
  post : List (Name × B)

/-- What does not change during a session: `realizable`, `winningPositions` and `positionalStrategiesForTheIndividualGoals`. -/
structure Shell (B : Type) where
  realizable : Bool
  winning : B
  strategies : List B

/-- `currentPosition` and `currentLivenessGuarantee`, `extensionInteractiveStrategy.hpp:137-138`. -/
structure ShellState (B : Type) where
  cur : B
  goal : Nat

/-- What a command leads to.  `rnd` are the values of `rand()%2` that have not been used yet. -/
inductive StepResult (B : Type) where
  | done (e : SessionEnd)
  | next (st : ShellState B) (i : Stdin) (rnd : List Bool) (e : Exchange)

/-- Body of the loop over the dumping data of a counterstrategy, `extensionInteractiveStrategy.hpp:122-127`.
State: `casesCovered` and `strategy`. -/
def envPositionalStep (M : Mgr B) (st : B × B) (entry : B) : B × B :=
  let actions := M.allPostOutput entry
  let newCases := M.and (M.exPost actions) (M.not st.1)
  (M.or st.1 newCases, M.or st.2 (M.and newCases actions))

/-- The environment's positional strategy for assumption `i`, `extensionInteractiveStrategy.hpp:118-129`. -/
def envPositional (M : Mgr B) (dump : CDump B) (i : Nat) : B :=
  (((dump.filter (fun e => e.1 == i)).map (fun e => e.2.2)).foldl (envPositionalStep M) (M.ff, M.ff)).2

/-- `extensionInteractiveStrategy.hpp:53-134`.  The loops in lines 86-115 are those of `extensionCounterstrategy.hpp:57-130`; the number of the
guarantee is not stored with the transitions, and is ignored here.  `none`: some loop has not ended within the given number of rounds;
`some none`: the internal error of `synthesisAlgorithm.cpp:105`. -/
def prepareShell (M : Mgr B) (c : Ctx B) (alg : Algorithm) (fuel : Nat) : Option (Option (Shell B)) :=
  match checkRealizability alg M c fuel with
  | none => none
  | some (.internalError, _) => some none
  | some (.realizable, W, dump) =>
    some (some { realizable := true, winning := W, strategies := (List.range c.livenessGuarantees.length).map (positional M dump) })
  | some (.unrealizable, _) =>
    match computeWinningPositionsC M c fuel with
    | none => none
    | some (W, dump) =>
      some (some { realizable := false, winning := W, strategies := (List.range c.livenessAssumptions.length).map (envPositional M dump) })

/-! ### Reading and printing values -/

/-- Values read as characters, e.g. `extensionInteractiveStrategy.hpp:426-439,596-614,810-825,827-845`: the characters, the conjunction of the
corresponding literals.  `none`: a character could not be read. -/
def readForced (M : Mgr B) : List (Name × B) → Stdin → B → Option (List Char × B × Stdin)
  | [], i, acc => some ([], acc, i)
  | v :: vs, i, acc =>
    match readChar i with
    | none => none
    | some (c, i') =>
      match readForced M vs i' (if c = '0' then M.and acc (M.not v.2) else if c = '1' then M.and acc v.2 else acc) with
      | none => none
      | some (cs, r) => some (c :: cs, r)

/-- Values read as numbers, e.g. `extensionInteractiveStrategy.hpp:176-196,199-219,276-296`. -/
def readValues (M : Mgr B) : List (Name × B) → Stdin → B → Label × B × Stdin
  | [], i, acc => ([], acc, i)
  | v :: vs, i, acc =>
    let r := readInt i
    let b : Bool := r.1.getD 0 ≠ 0
    let rest := readValues M vs r.2 (if b then M.and acc v.2 else M.and acc (M.not v.2))
    ((v.1, b) :: rest.1, rest.2)

/-- The next input for `MOVE`, `extensionInteractiveStrategy.hpp:321-344`: `to` and `nextPosition`. -/
def readNextInput (M : Mgr B) : List (Name × B) → Stdin → B → B → List (Name × Int) × B × B × Stdin
  | [], i, dest, next => ([], dest, next, i)
  | v :: vs, i, dest, next =>
    let r := readInt i
    let value := r.1.getD 0
    let rest :=
      if value = 0 then readNextInput M vs r.2 (M.and dest (M.not v.2)) (M.and next (M.not v.2))
      else if value = 1 then readNextInput M vs r.2 (M.and dest v.2) (M.and next v.2)
      else readNextInput M vs r.2 (M.and dest v.2) next
    ((v.1, value) :: rest.1, rest.2)

/-- The values printed for a position, e.g. `extensionInteractiveStrategy.hpp:464-481`. -/
def bitsIn (M : Mgr B) (vs : List (Name × B)) (f : B) : List Bool :=
  vs.map fun v => if M.and v.2 f = M.ff then false else true

/-- The numbers of the elements that intersect with `f`, e.g. `extensionInteractiveStrategy.hpp:239-246`. -/
def meeting (M : Mgr B) (l : List B) (f : B) : List Nat :=
  (List.range l.length).filter fun k => match l[k]? with | some b => M.and b f ≠ M.ff | none => false

/-- The strategies for the numbers `0, …, n-1` that intersect with `f`, `extensionInteractiveStrategy.hpp:263-269,402-408`; `none` if there are
fewer than `n` strategies (the access is out of bounds). -/
def meetingStrategies (M : Mgr B) (strategies : List B) (n : Nat) (f : B) : Option (List Nat) :=
  if n ≤ strategies.length then some (meeting M (strategies.take n) f) else none

/-! ### Completing positions and transitions -/

/-- `extensionInteractiveStrategy.hpp:619-635,754-770,869-885,933-948,1001-1018`: an open value (`.`) that `f` fixes gets a letter. -/
def mark (M : Mgr B) (low up : Char) (f : B) (vs : List (Name × B)) (res : List Char) : List Char :=
  List.zipWith (fun v r => if r = '.' then
    (if M.and f v.2 = M.ff then low else if M.and f (M.not v.2) = M.ff then up else '.') else r) vs res

/-- `extensionInteractiveStrategy.hpp:689-704`: as `mark`, with the tests in the other order. -/
def markUp (M : Mgr B) (low up : Char) (f : B) (vs : List (Name × B)) (res : List Char) : List Char :=
  List.zipWith (fun v r => if r = '.' then
    (if M.and f (M.not v.2) = M.ff then up else if M.and f v.2 = M.ff then low else '.') else r) vs res

/-- `extensionInteractiveStrategy.hpp:655-675,719-739,773-792,900-919,968-987,1025-1044`: the open values are chosen one after the other.
`none`: "Fatal error! Should not occur". -/
def concretize (M : Mgr B) : List (Name × B) → List Char → B → Option (List Char × B)
  | v :: vs, r :: rs, f =>
    if r = '.' then
      if M.and f (M.not v.2) ≠ M.ff then
        match concretize M vs rs (M.and f (M.not v.2)) with
        | none => none
        | some (l, f') => some ('0' :: l, f')
      else if M.and f v.2 ≠ M.ff then
        match concretize M vs rs (M.and f v.2) with
        | none => none
        | some (l, f') => some ('1' :: l, f')
      else none
    else
      match concretize M vs rs f with
      | none => none
      | some (l, f') => some (r :: l, f')
  | _, _, f => some ([], f)

/-- The answer to `XCOMPLETEINIT`, `extensionInteractiveStrategy.hpp:616-804`; `none` stands for the exceptions thrown. -/
def completeInitAnswer (M : Mgr B) (c : Ctx B) (vs : IVars B) (sh : Shell B) (forced : B) : Option (Answer Unit) :=
  let all := vs.preIn ++ vs.preOut
  let possible := M.and c.initEnv forced
  let result := mark M 'a' 'A' possible all (List.replicate all.length '.')
  if possible = M.ff then some .failAssumptions
  else
    let old := possible
    let possible := M.and possible (if sh.realizable then c.initSys else sh.winning)
    if possible = M.ff then
      if sh.realizable ∨ forced = M.tt then
        (concretize M all result old).map fun r => .failGuarantees r.1 ()
      else some .forcedNonWinning
    else
      let result := if sh.realizable then markUp M 'g' 'G' possible all result else markUp M 's' 'S' possible all result
      let old := possible
      let possible := M.and possible (if sh.realizable then sh.winning else c.initSys)
      if possible = M.ff then
        if sh.realizable then some .forcedNonWinning
        else (concretize M all result old).map fun r => .failGuarantees r.1 ()
      else
        let result := if sh.realizable then mark M 's' 'S' possible all result else mark M 'g' 'G' possible all result
        (concretize M all result possible).map fun r => .found r.1 ()

/-- `BF::operator<`, `BFCudd.h:125-128`: strict inclusion. -/
def strictlyBelow (M : Mgr B) (a b : B) : Bool := M.and a (M.not b) = M.ff ∧ a ≠ b

/-- What a computation of an answer yields. -/
inductive AnswerResult where
  | answer (a : Answer (Nat × Nat))
  | ub
  | thrown

/-- The letters of a failed or found transition together with the numbers. -/
def withNumbers (f : List Char → Nat × Nat → Answer (Nat × Nat)) (n : Nat × Nat) : Option (List Char × B) → AnswerResult
  | none => .thrown
  | some r => .answer (f r.1 n)

/-- The letters of the transition found and the next numbers, `extensionInteractiveStrategy.hpp:1046-1061`. -/
def nextNumbers (M : Mgr B) (c : Ctx B) (la lg : Nat) : Option (List Char × B) → AnswerResult
  | none => .thrown
  | some (letters, allSoFar) =>
    match c.livenessAssumptions[la]?, c.livenessGuarantees[lg]? with
    | some A, some G =>
      let la' := if strictlyBelow M allSoFar A then la + 1 else la
      let lg' := if strictlyBelow M allSoFar G then lg + 1 else lg
      .answer (.found letters (la' % c.livenessAssumptions.length, lg' % c.livenessGuarantees.length))
    | _, _ => .ub

/-- The answer to `XSTRATEGYTRANSITION`, `extensionInteractiveStrategy.hpp:862-1062`.  `la` and `lg` are the numbers that were read. -/
def strategyTransitionAnswer (M : Mgr B) (c : Ctx B) (vs : IVars B) (sh : Shell B) (start forced : B) (la lg : Nat) : AnswerResult :=
  let all := vs.postIn ++ vs.postOut
  let nA := c.livenessAssumptions.length
  let nG := c.livenessGuarantees.length
  let allSoFar := M.and (M.and start c.safetyEnv) forced
  if allSoFar = M.ff then .answer .failAssumptions
  else
    let result := mark M 'a' 'A' allSoFar all (List.replicate all.length '.')
    let old := allSoFar
    match (if sh.realizable then some c.safetySys else sh.strategies[la]?) with
    | none => .ub
    | some second =>
      let allSoFar := M.and allSoFar second
      if allSoFar = M.ff then
        if sh.realizable then withNumbers .failGuarantees (la % nA, lg % nG) (concretize M all result old)
        else .answer .forcedNonWinning
      else
        let result := if sh.realizable then mark M 'g' 'G' allSoFar all result else mark M 's' 'S' allSoFar all result
        let old := allSoFar
        match (if sh.realizable then sh.strategies[lg]? else some c.safetySys) with
        | none => .ub
        | some third =>
          let allSoFar := M.and allSoFar third
          if allSoFar = M.ff then
            if sh.realizable then .answer .forcedNonWinning
            else withNumbers .failGuarantees (la % nA, lg % nG) (concretize M all result old)
          else
            let result := if sh.realizable then mark M 's' 'S' allSoFar all result else mark M 'g' 'G' allSoFar all result
            let candidate := M.and (M.swap (M.exPost (M.and c.safetySys c.safetyEnv))) allSoFar
            let allSoFar := if candidate ≠ M.ff then candidate else allSoFar
            nextNumbers M c la lg (concretize M all result allSoFar)

/-! ### The commands -/

/-- The commands, `extensionInteractiveStrategy.hpp:156-1066`. -/
inductive Cmd where
  | quit | startPos | checkTrans | setPos | move | makeTrans | makeTransRandom | printInputs | printOutputs | getNumbers | getInit
  | completeInit | strategyTransition
  | unknown (l : List Char)
  deriving DecidableEq, Repr

open Slugs.Spec (trim) in
/-- `extensionInteractiveStrategy.hpp:153-154` and the comparisons in lines 156-1064. -/
def parseCommand (line : List Char) : Cmd :=
  let command := (trim line).map Char.toUpper
  if command = txt!"QUIT" ∨ command = txt!"EXIT" then .quit
  else if command = txt!"STARTPOS" then .startPos
  else if command = txt!"CHECKTRANS" then .checkTrans
  else if command = txt!"SETPOS" then .setPos
  else if command = txt!"MOVE" then .move
  else if command = txt!"XMAKETRANS" then .makeTrans
  else if command = txt!"XMAKETRANSRANDOM" then .makeTransRandom
  else if command = txt!"XPRINTINPUTS" then .printInputs
  else if command = txt!"XPRINTOUTPUTS" then .printOutputs
  else if command = txt!"XGETNOFLIVENESSPROPERTIES" then .getNumbers
  else if command = txt!"XGETINIT" then .getInit
  else if command = txt!"XCOMPLETEINIT" then .completeInit
  else if command = txt!"XSTRATEGYTRANSITION" then .strategyTransition
  else .unknown command

/-- `CHECKTRANS`, `extensionInteractiveStrategy.hpp:173-271` (the values of the second position also go into `from`; `to` stays true). -/
def execCheckTrans (M : Mgr B) (c : Ctx B) (vs : IVars B) (sh : Shell B) (st : ShellState B) (i : Stdin) (rnd : List Bool) : StepResult B :=
  let r1 := readValues M vs.pre i M.tt
  let r2 := readValues M vs.post r1.2.2 r1.2.1
  let f := M.and r2.2.1 M.tt
  match meetingStrategies M sh.strategies c.livenessGuarantees.length f with
  | none => .done .ub
  | some strategies =>
    .next st r2.2.2 rnd (.checkTrans r1.1 r2.1 (M.and r2.2.1 sh.winning ≠ M.ff) (M.and f c.safetyEnv ≠ M.ff)
      (M.and f c.safetySys ≠ M.ff) (meeting M c.livenessAssumptions f) (meeting M c.livenessGuarantees f) strategies)

/-- `MOVE`, `extensionInteractiveStrategy.hpp:298-417`. -/
def execMove (M : Mgr B) (c : Ctx B) (vs : IVars B) (sh : Shell B) (st : ShellState B) (i : Stdin) (rnd : List Bool) : StepResult B :=
  if st.cur = M.ff then .next st i rnd .moveUndefined
  else
    let r := readUnsignedInt i
    if r.2.fail then .next st r.2 rnd .moveNoNumber
    else
      match r.1 with
      | none => .done .ub
      | some guarantee =>
        if c.livenessGuarantees.length ≤ guarantee then .next st r.2 rnd .moveTooLarge
        else if M.and st.cur c.safetyEnv = M.ff then .next st r.2 rnd .moveNoInput
        else
          let ri := readNextInput M vs.postIn r.2 M.tt M.tt
          let dest := ri.2.1
          let warning : Bool := M.and (M.and st.cur dest) c.safetyEnv = M.ff
          match sh.strategies[guarantee]? with
          | none => .done .ub
          | some strategy =>
            let transition := M.and (M.and st.cur dest) strategy
            if transition = M.ff then .next st ri.2.2.2 rnd (.moveRefused guarantee ri.1 warning (!warning))
            else
              let transition := determinize M (vs.postOut.map Prod.snd) transition
              let output := vs.postOut.map fun v => (v.1, if M.and v.2 transition = M.ff then false else true)
              let next := vs.postOut.foldl (fun f v => if M.and v.2 transition = M.ff then M.and f (M.not v.2) else M.and f v.2) ri.2.2.1
              match meetingStrategies M sh.strategies c.livenessGuarantees.length transition with
              | none => .done .ub
              | some strategies =>
                .next { st with cur := M.swap next } ri.2.2.2 rnd
                  (.moved guarantee ri.1 output warning (meeting M c.livenessAssumptions transition)
                    (meeting M c.livenessGuarantees transition) strategies)

/-- `XMAKETRANS`, `extensionInteractiveStrategy.hpp:423-484`, and (`random = true`) `XMAKETRANSRANDOM`, lines 485-544. -/
def execMakeTrans (M : Mgr B) (c : Ctx B) (vs : IVars B) (sh : Shell B) (random : Bool) (st : ShellState B) (i : Stdin) (rnd : List Bool) :
    StepResult B :=
  if random = false ∧ sh.realizable = false then .done .thrown
  else
    match readForced M vs.postIn i M.tt with
    | none => .done .ub
    | some (typed, postInput, i') =>
      let trans := M.and (M.and st.cur postInput) c.safetyEnv
      if trans = M.ff then .next st i' rnd (.makeTrans random typed none)
      else
        match sh.strategies[st.goal]? with
        | none => .done .ub
        | some strategy =>
          let post := vs.post.map Prod.snd
          let trans := M.and trans strategy
          let newCombination := if random then determinizeRandomized M rnd post trans else determinize M post trans
          match goalJump M c.livenessGuarantees newCombination st.goal (c.livenessGuarantees.length + 1) st.goal true with
          | none => .done .ub
          | some next =>
            let cur := M.swap (M.exPre newCombination)
            .next { cur := cur, goal := next } i' (if random then rnd.drop post.length else rnd)
              (.makeTrans random typed (some (bitsIn M vs.preIn cur ++ bitsIn M vs.preOut cur, next)))

/-- `XSTRATEGYTRANSITION`, `extensionInteractiveStrategy.hpp:805-1062`. -/
def execStrategyTransition (M : Mgr B) (c : Ctx B) (vs : IVars B) (sh : Shell B) (st : ShellState B) (i : Stdin) (rnd : List Bool) :
    StepResult B :=
  match readForced M (vs.preIn ++ vs.preOut) i M.tt with
  | none => .done .ub
  | some (src, start, i1) =>
    match readForced M (vs.postIn ++ vs.postOut) i1 M.tt with
    | none => .done .ub
    | some (typed, forced, i2) =>
      let ra := readUnsignedInt i2
      let rg := readUnsignedInt ra.2
      match ra.1, rg.1 with
      | some la, some lg =>
        match strategyTransitionAnswer M c vs sh start forced la lg with
        | .ub => .done .ub
        | .thrown => .done .thrown
        | .answer a => .next st rg.2 rnd (.strategyTransition src typed la lg a)
      | _, _ => .done .ub

/-- The body of the loop, after the command has been read, `extensionInteractiveStrategy.hpp:152-1066`. -/
def execCmd (M : Mgr B) (c : Ctx B) (vs : IVars B) (sh : Shell B) (st : ShellState B) (i : Stdin) (rnd : List Bool) : Cmd → StepResult B
  | .quit => .done .quit
  | .startPos =>
    let init := determinize M (vs.pre.map Prod.snd) (M.and (M.and sh.winning c.initEnv) c.initSys)
    .next { st with cur := init } i rnd (.startPos (vs.pre.map fun v => (v.1, if M.and v.2 init = M.ff then false else true)))
  | .checkTrans => execCheckTrans M c vs sh st i rnd
  | .setPos =>
    let r := readValues M vs.pre i M.tt
    .next { st with cur := r.2.1 } r.2.2 rnd (.setPos r.1)
  | .move => execMove M c vs sh st i rnd
  | .makeTrans => execMakeTrans M c vs sh false st i rnd
  | .makeTransRandom => execMakeTrans M c vs sh true st i rnd
  | .printInputs => .next st i rnd (.printInputs (vs.preIn.map Prod.fst))
  | .printOutputs => .next st i rnd (.printOutputs (vs.preOut.map Prod.fst))
  | .getNumbers => .next st i rnd (.getNumbers c.livenessAssumptions.length c.livenessGuarantees.length)
  | .getInit =>
    let init := determinize M (vs.pre.map Prod.snd) (M.and (M.and sh.winning c.initEnv) c.initSys)
    .next { st with cur := init } i rnd (.getInit (bitsIn M vs.preIn init ++ bitsIn M vs.preOut init) 0)
  | .completeInit =>
    match readForced M (vs.preIn ++ vs.preOut) i M.tt with
    | none => .done .ub
    | some (typed, forced, i') =>
      match completeInitAnswer M c vs sh forced with
      | none => .done .thrown
      | some a => .next st i' rnd (.completeInit typed a)
  | .strategyTransition => execStrategyTransition M c vs sh st i rnd
  | .unknown l => .next st i rnd (.unknown l)

/-- The loop `while(true)`, `extensionInteractiveStrategy.hpp:141-1067`.  The first argument bounds the number of rounds; every round uses
up at least one character of the input, see `runInteractive`. -/
def sessionLoop (M : Mgr B) (c : Ctx B) (vs : IVars B) (sh : Shell B) : Nat → ShellState B → Stdin → List Bool → List Exchange →
    Option (List Exchange × SessionEnd)
  | 0, _, _, _, _ => none
  | n + 1, st, i, rnd, es =>
    match readCommand i with
    | .quit => some (es, .quit)
    | .hang => some (es, .hang)
    | .line l i' =>
      match execCmd M c vs sh st i' rnd (parseCommand l) with
      | .done e => some (es, e)
      | .next st' i'' rnd' e => sessionLoop M c vs sh n st' i'' rnd' (es ++ [e])

/-- The variables of a table as BFs (`variableManager.cpp:146-203`). -/
def tableIVars (B : Type) [DecidableEq B] [L : BddLib B] (tab : VarTable) : IVars B :=
  let ofType := fun ty => (varsOfType tab.types ty).map fun k => (tab.names.getD k [], L.var k)
  { preIn := ofType .preInput, preOut := ofType .preOutput, postIn := ofType .postInput, postOut := ofType .postOutput,
    pre := ofType .pre, post := ofType .post }

/-- What a run with `--interactiveStrategy` amounts to. -/
inductive IOutcome where
  /-- the verdict, the requests and answers, and the end of the session -/
  | session (realizable : Bool) (es : List Exchange) (e : SessionEnd)
  | internalError
  | inputError (e : InitErr)
  | ub
  /-- a loop has not ended within the given number of rounds -/
  | running

/-- `main.cpp:337-350` for `XInteractiveStrategy<GR1Context>` with the three algorithms, on a file with the given content and standard input `input`. -/
def runInteractive (B : Type) [DecidableEq B] [BddLib B] (alg : Algorithm) (cap : Nat) (order : List Char → Bool) (fuel : Nat)
    (text input : List Char) (rnd : List Bool) : IOutcome :=
  match initContext (B := B) cap order text with
  | .ok (tab, c) =>
    let M := bddMgr B tab.types
    match prepareShell M c alg fuel with
    | none => .running
    | some none => .internalError
    | some (some sh) =>
      match sessionLoop M c (tableIVars B tab) sh (input.length + 1) { cur := M.ff, goal := 0 } { chars := input, eof := false, fail := false } rnd [] with
      | none => .running
      | some (es, e) => .session sh.realizable es e
  | .err e => .inputError e
  | .ub => .ub
  | .stuck => .running

end Slugs.Model
