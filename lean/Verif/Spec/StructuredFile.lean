import Verif.Spec.Structured

/-!
What a structured specification file denotes (`/repo/doc/input_formats.md`, "structuredslugs"): declarations of Boolean and of integer variables, constraints, and
the game over the values of these variables.  There are no bits here.
-/

namespace Slugs.Spec.Structured

/-! ### Lines and sections -/

/-- All line ends (`\r\n`, `\r`, `\n`) are written `\n`. -/
def universal : List Char → List Char
  | [] => []
  | '\r' :: '\n' :: cs => '\n' :: universal cs
  | c :: cs => (if c = '\r' then '\n' else c) :: universal cs

/-- Remove white space at both ends. -/
def pyTrim (s : List Char) : List Char := ((s.dropWhile pySpace).reverse.dropWhile pySpace).reverse

/-- `SContent cur lines items`: when the section `cur` is open, the lines consist of the given items, each with the section it belongs to.  Lines are trimmed;
blank lines and comments are skipped; a header opens a section (again); no item starts with `[`. -/
inductive SContent : Option Section → List (List Char) → List (Section × List Char) → Prop
  | nil {cur} : SContent cur [] []
  | skip {cur l ls items} : pyTrim l = [] ∨ (pyTrim l).head? = some '#' → SContent cur ls items → SContent cur (l :: ls) items
  | header {cur l ls items} (s : Section) : pyTrim l = s.header → SContent (some s) ls items → SContent cur (l :: ls) items
  | item {s l ls items} : pyTrim l ≠ [] → (pyTrim l).head? ≠ some '#' → (pyTrim l).head? ≠ some '[' →
      SContent (some s) ls items → SContent (some s) (l :: ls) ((s, pyTrim l) :: items)

/-! ### Declarations -/

/-- A variable: Boolean, or an integer with a lower and an upper bound. -/
structure Decl where
  name : Word
  range : Option (Int × Int)

/-- The words with a special meaning in formulas. -/
def keywords : List Word := [txt!"X", txt!"F", txt!"G", txt!"U", txt!"W", txt!"FALSE", txt!"TRUE", txt!"next", txt!"LEASTSIGNIFICANTBITOVERWRITES"]

/-- The names of variables: letters, digits, `_` and `.`; no digit at the start; no word with a special meaning. -/
def Tidy (x : Word) : Prop :=
  (∃ c, x.head? = some c ∧ nameStart c) ∧ (∀ c ∈ x, nameChar c) ∧ '\'' ∉ x ∧ '@' ∉ x ∧ x ∉ keywords

/-- The text is a number. -/
def IsNumber (s : List Char) (z : Int) : Prop :=
  ∃ ds, ds ≠ [] ∧ (∀ c ∈ ds, isDigit c) ∧ (s = ds ∧ z = digitsVal ds ∨ s = '-' :: ds ∧ z = -(digitsVal ds : Int))

/-- The line declares the variable: `x`, or `x:lo...hi` with any white space between its parts.  (The lower bound is not negative: variables with negative lower
bounds can be declared, but no formula can use them, see `NExp.Proper`.) -/
inductive IsDecl : List Char → Decl → Prop
  | bool {x} : Tidy x → IsDecl x ⟨x, none⟩
  | num {x s1 s2 a s3 s4 b lo hi} : Tidy x → (∀ c ∈ s1 ++ s2 ++ s3 ++ s4, pySpace c) → IsNumber a lo → IsNumber b hi → 0 ≤ lo → lo ≤ hi →
      IsDecl (x ++ s1 ++ ':' :: s2 ++ a ++ s3 ++ txt!"..." ++ s4 ++ b) ⟨x, some (lo, hi)⟩

/-! ### Constraints -/

/-- A constraint: a formula in infix notation, or one in the notation of slugs. -/
inductive Constraint where
  | infix (f : SFml)
  | plain (φ : Fml)

/-- The line is the constraint; `bools` are the Boolean variables (and their next values).  In the notation of slugs, words are separated by blanks. -/
inductive IsConstraint (bools : List Word) : List Char → Constraint → Prop
  | infix {line f} : IsFormula bools line f → IsConstraint bools line (.infix f)
  | plain {line φ} : ReadsLine line φ → (∀ c ∈ line, pySpace c → c = ' ') → IsConstraint bools line (.plain φ)

/-! ### Specifications -/

structure SSpec where
  inputs : List Decl
  outputs : List Decl
  envInit : List Constraint
  sysInit : List Constraint
  envTrans : List Constraint
  sysTrans : List Constraint
  envLiveness : List Constraint
  sysLiveness : List Constraint

namespace SSpec

variable (S : SSpec)

def inputNames : List Word := S.inputs.map Decl.name

def outputNames : List Word := S.outputs.map Decl.name

def names : List Word := S.inputNames ++ S.outputNames

/-- The Boolean variables of a list of declarations. -/
def boolsOf (ds : List Decl) : List Word := (ds.filter fun d => d.range.isNone).map Decl.name

/-- The Boolean variables and their next values. -/
def bools : List Word := boolsOf (S.inputs ++ S.outputs) ++ (boolsOf (S.inputs ++ S.outputs)).map prime

/-- The bounds of the integer variables. -/
def bounds : Bounds := fun x => ((S.inputs ++ S.outputs).find? fun d => d.name = x).bind Decl.range

/-- The constraint is used properly: formulas are proper, and only use the variables that the section allows. -/
def Allows (s : Section) : Constraint → Prop
  | .infix f => f.Proper S.bounds false ∧ (∀ x ∈ f.atoms false, x ∈ usable s S.inputNames S.outputNames) ∧
      ∀ x ∈ f.numbers false, x ∈ usable s S.inputNames S.outputNames
  | .plain φ => φ.Wf 0 ∧ ∀ x ∈ φ.vars, x ∈ usable s (boolsOf S.inputs) (boolsOf S.outputs)

end SSpec

/-- The text denotes the specification, and is proper: no name is declared twice, and constraints only use the variables that their sections allow. -/
structure SDenotes (text : List Char) (S : SSpec) : Prop where
  content : ∃ items, SContent none (splitLines (universal text)) items ∧
    List.Forall₂ IsDecl (itemsOf .input items) S.inputs ∧ List.Forall₂ IsDecl (itemsOf .output items) S.outputs ∧
    List.Forall₂ (IsConstraint S.bools) (itemsOf .envInit items) S.envInit ∧
    List.Forall₂ (IsConstraint S.bools) (itemsOf .sysInit items) S.sysInit ∧
    List.Forall₂ (IsConstraint S.bools) (itemsOf .envTrans items) S.envTrans ∧
    List.Forall₂ (IsConstraint S.bools) (itemsOf .sysTrans items) S.sysTrans ∧
    List.Forall₂ (IsConstraint S.bools) (itemsOf .envLiveness items) S.envLiveness ∧
    List.Forall₂ (IsConstraint S.bools) (itemsOf .sysLiveness items) S.sysLiveness
  nodup : S.names.Nodup
  envInit : ∀ c ∈ S.envInit, S.Allows .envInit c
  sysInit : ∀ c ∈ S.sysInit, S.Allows .sysInit c
  envTrans : ∀ c ∈ S.envTrans, S.Allows .envTrans c
  sysTrans : ∀ c ∈ S.sysTrans, S.Allows .sysTrans c
  envLiveness : ∀ c ∈ S.envLiveness, S.Allows .envLiveness c
  sysLiveness : ∀ c ∈ S.sysLiveness, S.Allows .sysLiveness c

/-! ### The game -/

/-- The values that a variable can have; those of a Boolean variable are 0 (false) and 1 (true). -/
def Decl.Ok (d : Decl) (v : Int) : Prop :=
  match d.range with
  | none => v = 0 ∨ v = 1
  | some (lo, hi) => lo ≤ v ∧ v ≤ hi

/-- Values for the declared variables (and 0 for all other words). -/
def Valuation (ds : List Decl) : Type := {v : Word → Int // (∀ d ∈ ds, d.Ok (v d.name)) ∧ ∀ x, x ∉ ds.map Decl.name → v x = 0}

namespace SSpec

variable (S : SSpec)

abbrev In := Valuation S.inputs

abbrev Out := Valuation S.outputs

/-- The value of a variable at a position. -/
def now (p : Pos S.In S.Out) (x : Word) : Int := if x ∈ S.inputNames then p.1.1 x else p.2.1 x

/-- The value of a name in a transition from `p` to `q`: a declared name has its value in `p`; the name of a next value has the value of the unprimed name in
`q`. -/
def look (p q : Pos S.In S.Out) (x : Word) : Int := if x ∈ S.names then S.now p x else S.now q x.dropLast

/-- The constraint holds in the transition from `p` to `q`. -/
def holds (p q : Pos S.In S.Out) : Constraint → Prop
  | .infix f => f.holds S.bounds (fun x => S.look p q x = 1) (S.look p q) = true
  | .plain φ => φ.eval (fun x => S.look p q x = 1) [] = some true

/-- The game.  (Initial assumptions only use inputs and safety assumptions do not use next outputs, so that it does not matter which ones are plugged in.) -/
def game : Game S.In S.Out where
  initEnv i := ∀ c ∈ S.envInit, ∀ o, S.holds (i, o) (i, o) c
  initSys p := ∀ c ∈ S.sysInit, S.holds p p c
  safetyEnv p i := ∀ c ∈ S.envTrans, ∀ o, S.holds p (i, o) c
  safetySys p q := ∀ c ∈ S.sysTrans, S.holds p q c
  assumptions := S.envLiveness.map fun c p q => S.holds p q c
  guarantees := S.sysLiveness.map fun c p q => S.holds p q c

end SSpec

end Slugs.Spec.Structured
