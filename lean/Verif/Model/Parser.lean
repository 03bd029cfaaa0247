import Verif.Model.Stream
import Verif.Model.Vars
import Verif.Spec.SpecFile

/-!
Model of the reader: `synthesisContextBasics.cpp`.
-/

namespace Slugs.Model

open Slugs.Spec

/-- Outcomes of C++ code: a result, a reported error, undefined behaviour, or (only in the model) that the bound on the recursion
depth was exceeded. -/
inductive Res (ε α : Type) where
  | ok (a : α)
  | err (e : ε)
  | ub
  | stuck
  deriving DecidableEq, Repr

/-- Errors of the formula reader. -/
inductive ReadErr where
  /-- "Premature end of line", `synthesisContextBasics.cpp:25-29` -/
  | prematureEnd
  /-- "Expected number of memory elements", `:41-45` -/
  | expectedCount
  /-- "Expected number after memory recall operator", `:57-61` -/
  | expectedIndex
  /-- "Trying to recall a memory element that has not been stored (yet)", `:62-66` -/
  | notStored
  /-- "The variable ... is not allowed for this type of expression", `:73-77` -/
  | notAllowed
  /-- "The variable ... has not been found", `:81-83` -/
  | unknownVar
  /-- "There are stray characters", `:99-105` -/
  | strayCharacters
  /-- exception `std::bad_alloc` or `std::length_error` when allocating a memory buffer, `:46` -/
  | badAlloc
  deriving DecidableEq, Repr

variable {B : Type} [DecidableEq B] [L : BddLib B]

/-- A binary BF operator applied to the results of two recursive calls.  A BF that was default-constructed is a null
pointer (`none`); applying an operator to it is undefined behaviour (`BFCudd.h:139-153`). -/
def binOp (op : B → B → B) (a b : Option B) (rest : List Char) : Res ReadErr (Option B × List Char) :=
  match a, b with
  | some a, some b => .ok (some (op a b), rest)
  | _, _ => .ub

/-- The loop that fills a memory buffer, `synthesisContextBasics.cpp:47-49`.  `remaining` cells still have to be filled. -/
def bufLoop (p : List (Option B) → List Char → Res ReadErr (Option B × List Char)) :
    Nat → List (Option B) → List Char → Res ReadErr (List (Option B) × List Char)
  | 0, stored, inp => .ok (stored, inp)
  | k + 1, stored, inp =>
    match p (stored ++ List.replicate (k + 1) none) inp with
    | .ok (v, rest) => bufLoop p k (stored ++ [v]) rest
    | .err e => .err e
    | .ub => .ub
    | .stuck => .stuck

/-- The search for a variable, `synthesisContextBasics.cpp:71-83`; `i` is the number of the first variable of the lists. -/
def lookupVar (word : List Char) (allowed : List VarType) (rest : List Char) :
    Nat → List Name → List VarType → Res ReadErr (Option B × List Char)
  | i, n :: ns, t :: ts =>
    if n = word then
      (if allowed.contains t then .ok (some (L.var i), rest) else .err .notAllowed)
    else lookupVar word allowed rest (i + 1) ns ts
  | _, _, _ => .err .unknownVar

/-- `GR1Context::parseBooleanFormulaRecurse`, `synthesisContextBasics.cpp:22-84`.
* The first argument bounds the recursion depth (the C++ call stack is not bounded in the model).
* `order` resolves the unspecified evaluation order of the operands of `|`, `^` and `&` (`:30-32`): at the operator after
  which the text `rest` follows, `order rest = true` means that the right operand is evaluated (and therefore read) first.
* `cap` is the number of elements from which on allocating a buffer fails. -/
def parseRec (tab : VarTable) (allowed : List VarType) (cap : Nat) (order : List Char → Bool) :
    Nat → List (Option B) → List Char → Res ReadErr (Option B × List Char)
  | 0, _, _ => .stuck
  | fuel + 1, mem, inp =>
    let (word, rest) := readWord inp
    let two (op : B → B → B) : Res ReadErr (Option B × List Char) :=
      match parseRec tab allowed cap order fuel mem rest with
      | .ok (a, rest1) =>
        match parseRec tab allowed cap order fuel mem rest1 with
        | .ok (b, rest2) => if order rest then binOp op b a rest2 else binOp op a b rest2
        | .err e => .err e
        | .ub => .ub
        | .stuck => .stuck
      | .err e => .err e
      | .ub => .ub
      | .stuck => .stuck
    if word = [] then .err .prematureEnd
    else if word = ['|'] then two L.or
    else if word = ['^'] then two L.xor
    else if word = ['&'] then two L.and
    else if word = ['!'] then
      match parseRec tab allowed cap order fuel mem rest with
      | .ok (some a, rest1) => .ok (some (L.not a), rest1)
      | .ok (none, _) => .ub
      | .err e => .err e
      | .ub => .ub
      | .stuck => .stuck
    else if word = ['1'] then .ok (some L.tt, rest)
    else if word = ['0'] then .ok (some L.ff, rest)
    else if word = ['$'] then
      match readUnsigned rest with
      | none => .err .expectedCount
      | some (n, rest1) =>
        if n ≥ cap then .err .badAlloc
        else
          match bufLoop (parseRec tab allowed cap order fuel) n [] rest1 with
          | .ok (cells, rest2) =>
            match cells.getLast? with
            | some v => .ok (v, rest2)
            | none => .ub
          | .err e => .err e
          | .ub => .ub
          | .stuck => .stuck
    else if word = ['?'] then
      match readUnsigned rest with
      | none => .err .expectedIndex
      | some (k, rest1) =>
        match mem[k]? with
        | none => .err .notStored
        | some v => .ok (v, rest1)
    else lookupVar word allowed rest 0 tab.names tab.types

/-- `GR1Context::parseBooleanFormula`, `synthesisContextBasics.cpp:92-106`. -/
def parseFormula (tab : VarTable) (allowed : List VarType) (cap : Nat) (order : List Char → Bool) (line : List Char) :
    Res ReadErr (Option B) :=
  match parseRec tab allowed cap order (line.length + 1) [] line with
  | .ok (v, rest) => if (readWord rest).1 = [] then .ok v else .err .strayCharacters
  | .err e => .err e
  | .ub => .ub
  | .stuck => .stuck

/-- Section headers, `synthesisContextBasics.cpp:148-168`.  (`readMode`, `:141`, is modelled by `Option Section`.) -/
def sectionOf (line : List Char) : Option Section :=
  if line = txt!"[INPUT]" then some .input
  else if line = txt!"[OUTPUT]" then some .output
  else if line = txt!"[ENV_INIT]" then some .envInit
  else if line = txt!"[SYS_INIT]" then some .sysInit
  else if line = txt!"[ENV_TRANS]" then some .envTrans
  else if line = txt!"[SYS_TRANS]" then some .sysTrans
  else if line = txt!"[ENV_LIVENESS]" then some .envLiveness
  else if line = txt!"[SYS_LIVENESS]" then some .sysLiveness
  else none

/-- The variable types allowed in each section, `synthesisContextBasics.cpp:176-211`. -/
def allowedIn : Section → List VarType
  | .input => []
  | .output => []
  | .envInit => [.preInput]
  | .sysInit => [.preInput, .preOutput]
  | .envTrans => [.preInput, .preOutput, .postInput]
  | .sysTrans => [.preInput, .preOutput, .postInput, .postOutput]
  | .envLiveness => [.preInput, .preOutput, .postOutput, .postInput]
  | .sysLiveness => [.preInput, .preOutput, .postInput, .postOutput]

/-- State while reading a file. -/
structure InitState (B : Type) where
  table : VarTable
  ctx : Ctx B
  mode : Option Section

/-- Errors while reading a file. -/
inductive InitErr where
  /-- "Didn't recognize category", `synthesisContextBasics.cpp:165-168` -/
  | unknownSection
  /-- "Found a line in the specification file that has no proper categorial context", `:212-215` -/
  | noContext
  | formula (e : ReadErr)
  /-- "some variable name has been used twice", `:220-222` -/
  | duplicateNames
  deriving DecidableEq, Repr

/-- Adding a constraint to the context, `synthesisContextBasics.cpp:176-211`. -/
def addConstraint (c : Ctx B) (f : B) : Section → Ctx B
  | .envInit => { c with initEnv := L.and c.initEnv f }
  | .sysInit => { c with initSys := L.and c.initSys f }
  | .envTrans => { c with safetyEnv := L.and c.safetyEnv f }
  | .sysTrans => { c with safetySys := L.and c.safetySys f }
  | .envLiveness => { c with livenessAssumptions := c.livenessAssumptions ++ [f] }
  | .sysLiveness => { c with livenessGuarantees := c.livenessGuarantees ++ [f] }
  | _ => c

/-- One line of the file (already trimmed), `synthesisContextBasics.cpp:146-217`.  Simplifications: the line number in error messages is
not modelled, and a null BF is undefined behaviour right away (in the two liveness sections the C++ code stores it
in a vector first and uses it later). -/
def initLine (cap : Nat) (order : List Char → Bool) (st : InitState B) (line : List Char) : Res InitErr (InitState B) :=
  match line with
  | [] => .ok st
  | c :: _ =>
    if c = '#' then .ok st
    else if c = '[' then
      match sectionOf line with
      | some m => .ok { st with mode := some m }
      | none => .err .unknownSection
    else
      match st.mode with
      | none => .err .noContext
      | some .input =>
        .ok { st with table := (st.table.add .preInput line).add .postInput (line ++ ['\'']) }
      | some .output =>
        .ok { st with table := (st.table.add .preOutput line).add .postOutput (line ++ ['\'']) }
      | some m =>
        match parseFormula st.table (allowedIn m) cap order line with
        | .ok (some f) => .ok { st with ctx := addConstraint st.ctx f m }
        | .ok none => .ub
        | .err e => .err (.formula e)
        | .ub => .ub
        | .stuck => .stuck

/-- The loop over the lines, `synthesisContextBasics.cpp:144-218`. -/
def initLines (cap : Nat) (order : List Char → Bool) : InitState B → List (List Char) → Res InitErr (InitState B)
  | st, [] => .ok st
  | st, l :: ls =>
    match initLine cap order st (trim l) with
    | .ok st => initLines cap order st ls
    | .err e => .err e
    | .ub => .ub
    | .stuck => .stuck

/-- The state before the first line, `synthesisContextBasics.cpp:134-143`. -/
def initStart : InitState B where
  table := ⟨[], []⟩
  ctx := { livenessAssumptions := [], livenessGuarantees := [], initEnv := L.tt, initSys := L.tt,
           safetyEnv := L.tt, safetySys := L.tt }
  mode := none

/-- `GR1Context::init` on the content of an input file, `synthesisContextBasics.cpp:118-228` (opening the file is not
modelled): reads the lines, checks for duplicate names and makes sure that there are liveness constraints. -/
def initContext (cap : Nat) (order : List Char → Bool) (content : List Char) : Res InitErr (VarTable × Ctx B) :=
  match initLines cap order initStart (splitLines content) with
  | .ok st =>
    if st.table.names.Nodup then
      .ok (st.table, { st.ctx with
        livenessAssumptions := if st.ctx.livenessAssumptions = [] then [L.tt] else st.ctx.livenessAssumptions
        livenessGuarantees := if st.ctx.livenessGuarantees = [] then [L.tt] else st.ctx.livenessGuarantees })
    else .err .duplicateNames
  | .err e => .err e
  | .ub => .ub
  | .stuck => .stuck

end Slugs.Model
