import Verif.Spec.Explicit
import Verif.Spec.Aiger

/-!
The part of the input language of the model checker NuSMV that is needed here: a module with boolean variables and a variable `state` that ranges over an interval of numbers,
assignments with `case`, and specifications in linear temporal logic (LTL).  This follows the user manual of NuSMV 2.
-/

namespace Slugs.Spec.Smv

/-- Texts with a separator between them. -/
def sepBy (sep : List Char) : List (List Char) → List Char
  | [] => []
  | [a] => a
  | a :: b :: l => a ++ sep ++ sepBy sep (b :: l)

/-! ### Traces -/

/-- The values of the boolean variables and of `state` at every time.  (NuSMV has one name space for state variables and input variables; the value of an input variable at a time
is the one that it has in the transition from this time on.) -/
structure Trace where
  val : Nat → Word → Bool
  state : Nat → Nat

/-! ### Assignments -/

/-- A part of the condition of a branch of `case`. -/
inductive Test where
  | at (n : Nat)
  | below (n : Nat)
  | lit (x : Word) (positive : Bool)
  | otherwise

def Test.text : Test → List Char
  | .at n => txt!"state = " ++ decimal n
  | .below n => txt!"state < " ++ decimal n
  | .lit x true => x
  | .lit x false => '!' :: x
  | .otherwise => txt!"TRUE"

def Test.Holds (tr : Trace) (t : Nat) : Test → Prop
  | .at n => tr.state t = n
  | .below n => tr.state t < n
  | .lit x b => tr.val t x = b
  | .otherwise => True

/-- The value of a branch, or a set from which a value is chosen; `sep` is the text between the elements of the set. -/
inductive Choice (V : Type) where
  | one (v : V)
  | among (sep : List Char) (vs : List V)

def Choice.values {V : Type} : Choice V → List V
  | .one v => [v]
  | .among _ vs => vs

def Choice.text {V : Type} (show' : V → List Char) : Choice V → List Char
  | .one v => show' v
  | .among sep vs => txt!"{" ++ sepBy sep (vs.map show') ++ txt!"}"

/-- A line of a `case` expression. -/
inductive Branch (V : Type) where
  | rule (tests : List Test) (choice : Choice V)
  | comment (text : List Char)

def Branch.text {V : Type} (show' : V → List Char) : Branch V → List Char
  | .rule tests choice => txt!"    " ++ sepBy txt!" & " (tests.map Test.text) ++ txt!" : " ++ choice.text show' ++ txt!";\n"
  | .comment text => txt!"    -- " ++ text ++ txt!"\n"

/-- The first branch whose condition is true gives the value. -/
inductive Picks {V : Type} (tr : Trace) (t : Nat) : List (Branch V) → List V → Prop
  | here {tests choice rest} : (∀ x ∈ tests, x.Holds tr t) → Picks tr t (.rule tests choice :: rest) choice.values
  | later {tests choice rest vs} : ¬ (∀ x ∈ tests, x.Holds tr t) → Picks tr t rest vs → Picks tr t (.rule tests choice :: rest) vs
  | comment {text rest vs} : Picks tr t rest vs → Picks tr t (.comment text :: rest) vs

/-! ### Linear temporal logic -/

/-- Formulas, as they are written: brackets are a part of them. -/
inductive Ltl where
  | tt
  | ff
  | var (x : Word)
  /-- `state!=n` -/
  | stateNot (n : Nat)
  /-- `blanks` is the text after the negation sign -/
  | not (blanks : List Char) (f : Ltl)
  | brackets (f : Ltl)
  | and (f g : Ltl)
  | or (f g : Ltl)
  | implies (f g : Ltl)
  | next (f : Ltl)
  | eventually (f : Ltl)
  | globally (f : Ltl)
  /-- `f V g` -/
  | releases (f g : Ltl)

def Ltl.text : Ltl → List Char
  | .tt => txt!"TRUE"
  | .ff => txt!"FALSE"
  | .var x => x
  | .stateNot n => txt!"state!=" ++ decimal n
  | .not blanks f => '!' :: blanks ++ f.text
  | .brackets f => txt!"(" ++ f.text ++ txt!")"
  | .and f g => f.text ++ txt!" & " ++ g.text
  | .or f g => f.text ++ txt!" | " ++ g.text
  | .implies f g => f.text ++ txt!" -> " ++ g.text
  | .next f => txt!"X " ++ f.text
  | .eventually f => txt!"F " ++ f.text
  | .globally f => txt!"G " ++ f.text
  | .releases f g => f.text ++ txt!" V " ++ g.text

def Ltl.Holds (tr : Trace) : Ltl → Nat → Prop
  | .tt, _ => True
  | .ff, _ => False
  | .var x, t => tr.val t x = true
  | .stateNot n, t => tr.state t ≠ n
  | .not _ f, t => ¬ f.Holds tr t
  | .brackets f, t => f.Holds tr t
  | .and f g, t => f.Holds tr t ∧ g.Holds tr t
  | .or f g, t => f.Holds tr t ∨ g.Holds tr t
  | .implies f g, t => f.Holds tr t → g.Holds tr t
  | .next f, t => f.Holds tr (t + 1)
  | .eventually f, t => ∃ u ≥ t, f.Holds tr u
  | .globally f, t => ∀ u ≥ t, f.Holds tr u
  | .releases f g, t => ∀ u ≥ t, (∀ v, t ≤ v → v < u → ¬ f.Holds tr v) → g.Holds tr u

/-- How strongly the outermost operator binds: the text of a formula is read as this formula if the operands of every operator bind at least as strongly as is required by
`WellBracketed`. -/
def Ltl.strength : Ltl → Nat
  | .and .. => 2
  | .or .. => 1
  | .implies .. => 0
  | .releases .. => 0
  | _ => 3

/-- Operands of unary operators and of `V`, `|` and `->` are bracketed unless they are unary themselves; `&` associates to the left. -/
def Ltl.WellBracketed : Ltl → Prop
  | .tt | .ff | .var _ | .stateNot _ => True
  | .not _ f | .next f | .eventually f | .globally f => f.strength = 3 ∧ f.WellBracketed
  | .brackets f => f.WellBracketed
  | .and f g => 2 ≤ f.strength ∧ g.strength = 3 ∧ f.WellBracketed ∧ g.WellBracketed
  | .or f g | .implies f g | .releases f g => f.strength = 3 ∧ g.strength = 3 ∧ f.WellBracketed ∧ g.WellBracketed

/-- The boolean variables of a formula. -/
def Ltl.vars : Ltl → List Word
  | .tt | .ff | .stateNot _ => []
  | .var x => [x]
  | .not _ f | .brackets f | .next f | .eventually f | .globally f => f.vars
  | .and f g | .or f g | .implies f g | .releases f g => f.vars ++ g.vars

/-! ### Modules -/

/-- A module. -/
structure Module where
  /-- boolean input variables -/
  ivars : List Word
  /-- boolean state variables -/
  vars : List Word
  /-- `state` ranges over the numbers from 0 to this one -/
  top : Nat
  init : Nat
  nextState : List (Branch Nat)
  nextVars : List (Word × List (Branch Bool))
  specs : List Ltl

def showBool (b : Bool) : List Char := if b then txt!"TRUE" else txt!"FALSE"

def caseText {V : Type} (show' : V → List Char) (x : List Char) (bs : List (Branch V)) : List Char :=
  txt!"  next(" ++ x ++ txt!") :=\n   case\n" ++ bs.flatMap (Branch.text show') ++ txt!"   esac;\n"

/-- The file for a module. -/
def Module.text (M : Module) : List Char :=
  txt!"MODULE main\n IVAR\n" ++ M.ivars.flatMap (fun x => txt!"  " ++ x ++ txt!" : boolean;\n") ++
    txt!" VAR\n" ++ M.vars.flatMap (fun x => txt!"  " ++ x ++ txt!" : boolean;\n") ++ txt!"  state : 0.." ++ decimal M.top ++ txt!";\n" ++
    txt!" ASSIGN\n  init(state) := " ++ decimal M.init ++ txt!";\n" ++ caseText decimal txt!"state" M.nextState ++
    M.nextVars.flatMap (fun e => caseText showBool e.1 e.2) ++ txt!"\n" ++
    M.specs.flatMap fun f => txt!"LTLSPEC " ++ f.text ++ txt!";\n"

/-- The reserved words, and the name of the variable `state`. -/
def keywords : List Word :=
  [txt!"MODULE", txt!"DEFINE", txt!"MDEFINE", txt!"CONSTANTS", txt!"VAR", txt!"IVAR", txt!"FROZENVAR", txt!"INIT", txt!"TRANS", txt!"INVAR", txt!"SPEC",
    txt!"CTLSPEC", txt!"LTLSPEC", txt!"PSLSPEC", txt!"COMPUTE", txt!"NAME", txt!"INVARSPEC", txt!"FAIRNESS", txt!"JUSTICE", txt!"COMPASSION", txt!"ISA",
    txt!"ASSIGN", txt!"CONSTRAINT", txt!"SIMPWFF", txt!"CTLWFF", txt!"LTLWFF", txt!"PSLWFF", txt!"COMPWFF", txt!"IN", txt!"MIN", txt!"MAX", txt!"MIRROR",
    txt!"PRED", txt!"PREDICATES", txt!"process", txt!"array", txt!"of", txt!"boolean", txt!"integer", txt!"real", txt!"word", txt!"word1", txt!"bool", txt!"signed",
    txt!"unsigned", txt!"extend", txt!"resize", txt!"sizeof", txt!"uwconst", txt!"swconst", txt!"EX", txt!"AX", txt!"EF", txt!"AF", txt!"EG", txt!"AG", txt!"E",
    txt!"F", txt!"O", txt!"G", txt!"H", txt!"X", txt!"Y", txt!"Z", txt!"A", txt!"U", txt!"S", txt!"V", txt!"T", txt!"BU", txt!"EBF", txt!"ABF", txt!"EBG",
    txt!"ABG", txt!"case", txt!"esac", txt!"mod", txt!"next", txt!"init", txt!"union", txt!"in", txt!"xor", txt!"xnor", txt!"self", txt!"TRUE", txt!"FALSE",
    txt!"count", txt!"abs", txt!"max", txt!"min", txt!"state"]

/-- Letters, digits and a few signs; no digit and no sign at the beginning. -/
def identChar (c : Char) : Bool := c.isAlphanum || c == '_' || c == '$' || c == '#'

def Identifier (x : Word) : Prop := x ∉ keywords ∧ (∀ c ∈ x, identChar c = true) ∧ ∃ c, x.head? = some c ∧ (c.isAlpha || c == '_') = true

def Test.Uses (names : List Word) (top : Nat) : Test → Prop
  | .at n | .below n => n ≤ top
  | .lit x _ => x ∈ names
  | .otherwise => True

/-- Branches use declared variables, sets are not empty, and the last condition is true, so that there is always a value. -/
structure CaseValid {V : Type} (names : List Word) (top : Nat) (ok : V → Prop) (bs : List (Branch V)) : Prop where
  tests : ∀ b ∈ bs, ∀ ts c, b = .rule ts c → ts ≠ [] ∧ (∀ x ∈ ts, x.Uses names top) ∧ c.values ≠ [] ∧ ∀ v ∈ c.values, ok v
  comments : ∀ b ∈ bs, ∀ t, b = .comment t → '\n' ∉ t
  last : ∃ c, bs.getLast? = some (.rule [.otherwise] c)

/-- The module is well-formed. -/
structure Module.Valid (M : Module) : Prop where
  names : (M.ivars ++ M.vars).Nodup ∧ ∀ x ∈ M.ivars ++ M.vars, Identifier x
  init : M.init ≤ M.top
  nextState : CaseValid (M.ivars ++ M.vars) M.top (· ≤ M.top) M.nextState
  nextVars : (M.nextVars.map Prod.fst).Nodup ∧ ∀ e ∈ M.nextVars, e.1 ∈ M.vars ∧ CaseValid (M.ivars ++ M.vars) M.top (fun _ => True) e.2
  specs : ∀ f ∈ M.specs, f.WellBracketed ∧ ∀ x ∈ f.vars, x ∈ M.ivars ++ M.vars

/-- The executions of a module. -/
def Module.Run (M : Module) (tr : Trace) : Prop :=
  tr.state 0 = M.init ∧ ∀ t, (∃ ns, Picks tr t M.nextState ns ∧ tr.state (t + 1) ∈ ns) ∧
    ∀ e ∈ M.nextVars, ∃ bs, Picks tr t e.2 bs ∧ tr.val (t + 1) e.1 ∈ bs

/-- What NuSMV checks: every specification holds in all executions. -/
def Module.Passes (M : Module) : Prop := ∀ f ∈ M.specs, ∀ tr, M.Run tr → f.Holds tr 0

end Smv

/-! ### What is to be checked -/

/-- All constraints, also the liveness constraints, are written plainly. -/
def AllPlain (text : List Char) (sp : SpecFile) : Prop :=
  ∃ items, Content none (splitLines text) items ∧
    itemsOf .envInit items = sp.envInit.map Fml.text ∧ itemsOf .sysInit items = sp.sysInit.map Fml.text ∧
    itemsOf .envTrans items = sp.envTrans.map Fml.text ∧ itemsOf .sysTrans items = sp.sysTrans.map Fml.text ∧
    itemsOf .envLiveness items = sp.envLiveness.map Fml.text ∧ itemsOf .sysLiveness items = sp.sysLiveness.map Fml.text

/-- All constraints of a specification. -/
def SpecFile.constraints (sp : SpecFile) : List Fml := sp.envInit ++ sp.sysInit ++ sp.envTrans ++ sp.sysTrans ++ sp.envLiveness ++ sp.sysLiveness

/-- A formula with constants, variables, negations, conjunctions and disjunctions only. -/
def Fml.Basic : Fml → Prop
  | .const _ | .var _ => True
  | .not f => f.Basic
  | .bin op f g => op ≠ .xor ∧ f.Basic ∧ g.Basic
  | _ => False

/-- An automaton for a specification: the states are numbered from 0 on, each has a value for every variable, and successors are states. -/
structure Automaton (sp : SpecFile) (sts : List PState) : Prop where
  numbers : sts.map PState.num = List.range sts.length
  labels : ∀ st ∈ sts, st.Complete sp
  targets : ∀ st ∈ sts, ∀ n ∈ st.succ, n < sts.length

/-- A run of `n` steps that starts in a state with an allowed initial position and in which the environment obeys the safety assumptions. -/
structure AllowedRun (sp : SpecFile) (sts : List PState) (r : Nat → PState) (n : Nat) : Prop where
  start : r 0 ∈ sts ∧ sp.game.initEnv ((r 0).pos sp).1 ∧ sp.game.initSys ((r 0).pos sp)
  steps : ∀ k < n, Edge sts (r k) (r (k + 1)) ∧ sp.game.safetyEnv ((r k).pos sp) ((r (k + 1)).pos sp).1

/-- No run that starts in a state with an allowed initial position violates the safety guarantees. -/
def SafeRuns (sp : SpecFile) (sts : List PState) : Prop :=
  ∀ r n, AllowedRun sp sts r n → ∀ k < n, sp.game.safetySys ((r k).pos sp) ((r (k + 1)).pos sp)

/-- All infinite runs that start in a state with an allowed initial position satisfy the liveness part. -/
def LiveRunsInit (sp : SpecFile) (sts : List PState) : Prop := ∀ r, (∀ n, AllowedRun sp sts r n) → sp.game.Live fun n => (r n).pos sp

end Slugs.Spec
