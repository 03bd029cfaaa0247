import Verif.Spec.Formula
import Verif.Spec.Game
import Mathlib.Data.List.Forall2

/-!
What a `slugsin` file denotes (`/repo/doc/input_formats.md`, "slugsin"): its sections, its declarations, its
constraints, and the GR(1) game.
-/

namespace Slugs.Spec

/-- The sections of a file. -/
inductive Section where
  | input | output | envInit | sysInit | envTrans | sysTrans | envLiveness | sysLiveness
  deriving DecidableEq, Repr

def Section.all : List Section := [.input, .output, .envInit, .sysInit, .envTrans, .sysTrans, .envLiveness, .sysLiveness]

/-- The line with which a section starts. -/
def Section.header : Section → List Char
  | .input => txt!"[INPUT]"
  | .output => txt!"[OUTPUT]"
  | .envInit => txt!"[ENV_INIT]"
  | .sysInit => txt!"[SYS_INIT]"
  | .envTrans => txt!"[ENV_TRANS]"
  | .sysTrans => txt!"[SYS_TRANS]"
  | .envLiveness => txt!"[ENV_LIVENESS]"
  | .sysLiveness => txt!"[SYS_LIVENESS]"

/-- `Content cur lines items`: when the section `cur` is open, the lines consist of the given items, each with the section it
belongs to.  Lines are trimmed; blank lines and comments are skipped; a header opens a section (again). -/
inductive Content : Option Section → List (List Char) → List (Section × List Char) → Prop
  | nil {cur} : Content cur [] []
  | skip {cur l ls items} : trim l = [] ∨ (trim l).head? = some '#' → Content cur ls items → Content cur (l :: ls) items
  | header {cur l ls items} (s : Section) : trim l = s.header → Content (some s) ls items → Content cur (l :: ls) items
  | item {s l ls items} : trim l ≠ [] → (trim l).head? ≠ some '#' → (trim l).head? ≠ some '[' →
      Content (some s) ls items → Content (some s) (l :: ls) ((s, trim l) :: items)

/-- The section that a (trimmed) line starts. -/
def headerOf (l : List Char) : Option Section := Section.all.find? (fun s => s.header = l)

/-- The section that is open after some lines. -/
def openAfter : Option Section → List (List Char) → Option Section
  | cur, [] => cur
  | cur, l :: ls => openAfter ((headerOf (trim l)).or cur) ls

/-- The items of a section, in order. -/
def itemsOf (s : Section) (items : List (Section × List Char)) : List (List Char) :=
  (items.filter (fun p => p.1 = s)).map (fun p => p.2)

/-- A specification: declared variables and constraints. -/
structure SpecFile where
  inputs : List Word
  outputs : List Word
  envInit : List Fml
  sysInit : List Fml
  envTrans : List Fml
  sysTrans : List Fml
  envLiveness : List Fml
  sysLiveness : List Fml

/-- The text denotes the specification. -/
def Denotes (text : List Char) (sp : SpecFile) : Prop :=
  ∃ items, Content none (splitLines text) items ∧
    sp.inputs = itemsOf .input items ∧ sp.outputs = itemsOf .output items ∧
    List.Forall₂ ReadsLine (itemsOf .envInit items) sp.envInit ∧
    List.Forall₂ ReadsLine (itemsOf .sysInit items) sp.sysInit ∧
    List.Forall₂ ReadsLine (itemsOf .envTrans items) sp.envTrans ∧
    List.Forall₂ ReadsLine (itemsOf .sysTrans items) sp.sysTrans ∧
    List.Forall₂ ReadsLine (itemsOf .envLiveness items) sp.envLiveness ∧
    List.Forall₂ ReadsLine (itemsOf .sysLiveness items) sp.sysLiveness

/-- The name of the next value of a variable. -/
def prime (x : Word) : Word := x ++ ['\'']

/-- All names that can be used in formulas. -/
def SpecFile.names (sp : SpecFile) : List Word :=
  sp.inputs ++ sp.outputs ++ sp.inputs.map prime ++ sp.outputs.map prime

/-- No name is used twice. -/
def SpecFile.Unambiguous (sp : SpecFile) : Prop := sp.names.Nodup

/-- The names that a constraint in a section can use, given the variables declared so far. -/
def usable (s : Section) (inputs outputs : List Word) : List Word :=
  match s with
  | .input => []
  | .output => []
  | .envInit => inputs
  | .sysInit => inputs ++ outputs
  | .envTrans => inputs ++ outputs ++ inputs.map prime
  | _ => inputs ++ outputs ++ inputs.map prime ++ outputs.map prime

/-- A proper file: no name is used twice, and every constraint is the text of a well-formed formula over variables that
have been declared before it and that are allowed in its section.  (`maxLine` bounds the length of the constraints.) -/
def ProperFile (maxLine : Nat) (text : List Char) : Prop :=
  ∃ items, Content none (splitLines text) items ∧
    (itemsOf .input items ++ itemsOf .output items ++ (itemsOf .input items).map prime ++
      (itemsOf .output items).map prime).Nodup ∧
    ∀ before s line after, items = before ++ (s, line) :: after → s ≠ .input → s ≠ .output →
      line.length ≤ maxLine ∧ ∃ φ, ReadsLine line φ ∧ φ.Wf 0 ∧
        ∀ x ∈ φ.vars, x ∈ usable s (itemsOf .input before) (itemsOf .output before)

/-- Constraints only use the variables allowed in their sections. -/
structure SpecFile.WellScoped (sp : SpecFile) : Prop where
  envInit : ∀ φ ∈ sp.envInit, ∀ x ∈ φ.vars, x ∈ sp.inputs
  sysInit : ∀ φ ∈ sp.sysInit, ∀ x ∈ φ.vars, x ∈ sp.inputs ++ sp.outputs
  envTrans : ∀ φ ∈ sp.envTrans, ∀ x ∈ φ.vars, x ∈ sp.inputs ++ sp.outputs ++ sp.inputs.map prime
  sysTrans : ∀ φ ∈ sp.sysTrans, ∀ x ∈ φ.vars, x ∈ sp.names
  envLiveness : ∀ φ ∈ sp.envLiveness, ∀ x ∈ φ.vars, x ∈ sp.names
  sysLiveness : ∀ φ ∈ sp.sysLiveness, ∀ x ∈ φ.vars, x ∈ sp.names

/-- All formulas have a meaning (no buffer element is used that has not been stored). -/
def SpecFile.Meaningful (sp : SpecFile) : Prop :=
  ∀ φ ∈ sp.envInit ++ sp.sysInit ++ sp.envTrans ++ sp.sysTrans ++ sp.envLiveness ++ sp.sysLiveness,
    ∀ ρ, ∃ b, φ.eval ρ [] = some b

/-- Inputs: values of the declared input variables. -/
abbrev SpecFile.In (sp : SpecFile) := {x // x ∈ sp.inputs} → Bool

/-- Outputs: values of the declared output variables. -/
abbrev SpecFile.Out (sp : SpecFile) := {x // x ∈ sp.outputs} → Bool

/-- The value of a declared name at a position (false for other words). -/
def SpecFile.now (sp : SpecFile) (i : sp.In) (o : sp.Out) (x : Word) : Bool :=
  if h : x ∈ sp.inputs then i ⟨x, h⟩ else if h : x ∈ sp.outputs then o ⟨x, h⟩ else false

/-- The value of a name in a transition from `p` to `q`: a declared name has its value in `p`; the name
of a next value has the value of the unprimed name in `q`. -/
def SpecFile.look (sp : SpecFile) (p q : Pos sp.In sp.Out) (x : Word) : Bool :=
  if x ∈ sp.inputs ++ sp.outputs then sp.now p.1 p.2 x else sp.now q.1 q.2 x.dropLast

/-- The formula holds in the transition from `p` to `q`. -/
def SpecFile.holds (sp : SpecFile) (p q : Pos sp.In sp.Out) (φ : Fml) : Prop := φ.eval (sp.look p q) [] = some true

/-- The game.  Initial constraints only use current variables and safety assumptions do not use next outputs (`WellScoped`),
so that it does not matter what values are plugged in for those. -/
def SpecFile.game (sp : SpecFile) : Game sp.In sp.Out where
  initEnv i := ∀ φ ∈ sp.envInit, sp.holds (i, fun _ => false) (i, fun _ => false) φ
  initSys p := ∀ φ ∈ sp.sysInit, sp.holds p p φ
  safetyEnv p i := ∀ φ ∈ sp.envTrans, sp.holds p (i, fun _ => false) φ
  safetySys p q := ∀ φ ∈ sp.sysTrans, sp.holds p q φ
  assumptions := sp.envLiveness.map fun φ p q => sp.holds p q φ
  guarantees := sp.sysLiveness.map fun φ p q => sp.holds p q φ

end Slugs.Spec
