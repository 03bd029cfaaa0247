import Verif.Spec.SpecFile

/-!
What a specification with fast and slow outputs is (option `--IROSfastslow`, "Uses fastslow semantics from IROS 2012 paper.
Requires different input file format."): fast outputs take effect before slow ones, so that in every step the system passes through an intermediate
position, which has to be safe, too.
-/

namespace Slugs.Spec

/-- The sections of a file: the outputs are divided into fast and slow ones. -/
inductive FSSection where
  | input | outputF | outputS | envInit | sysInit | envTrans | sysTrans | envLiveness | sysLiveness
  deriving DecidableEq, Repr

/-- The line with which a section starts. -/
def FSSection.header : FSSection → List Char
  | .input => txt!"[INPUT]"
  | .outputF => txt!"[OUTPUT_F]"
  | .outputS => txt!"[OUTPUT_S]"
  | .envInit => txt!"[ENV_INIT]"
  | .sysInit => txt!"[SYS_INIT]"
  | .envTrans => txt!"[ENV_TRANS]"
  | .sysTrans => txt!"[SYS_TRANS]"
  | .envLiveness => txt!"[ENV_LIVENESS]"
  | .sysLiveness => txt!"[SYS_LIVENESS]"

/-- The section of an ordinary file. -/
def FSSection.plain : FSSection → Section
  | .input => .input
  | .outputF => .output
  | .outputS => .output
  | .envInit => .envInit
  | .sysInit => .sysInit
  | .envTrans => .envTrans
  | .sysTrans => .sysTrans
  | .envLiveness => .envLiveness
  | .sysLiveness => .sysLiveness

/-- As `Content`, with the other section headers. -/
inductive FSContent : Option FSSection → List (List Char) → List (FSSection × List Char) → Prop
  | nil {cur} : FSContent cur [] []
  | skip {cur l ls items} : trim l = [] ∨ (trim l).head? = some '#' → FSContent cur ls items → FSContent cur (l :: ls) items
  | header {cur l ls items} (s : FSSection) : trim l = s.header → FSContent (some s) ls items → FSContent cur (l :: ls) items
  | item {s l ls items} : trim l ≠ [] → (trim l).head? ≠ some '#' → (trim l).head? ≠ some '[' →
      FSContent (some s) ls items → FSContent (some s) (l :: ls) ((s, trim l) :: items)

/-- The items of a section, in order. -/
def fsItemsOf (s : FSSection) (items : List (FSSection × List Char)) : List (List Char) :=
  (items.filter (fun p => p.1 = s)).map (fun p => p.2)

/-- The fast and the slow outputs, in order. -/
def fsOutputs (items : List (FSSection × List Char)) : List (List Char) :=
  (items.filter fun p => p.1 = .outputF ∨ p.1 = .outputS).map (fun p => p.2)

/-- As `ProperFile`: declared names are distinct, lines are not too long, and constraints are well-formed formulas over variables that have been declared
before and can be used in the section. -/
def FSProperFile (maxLine : Nat) (text : List Char) : Prop :=
  ∃ items, FSContent none (splitLines text) items ∧
    (fsItemsOf .input items ++ fsOutputs items ++ (fsItemsOf .input items).map prime ++ (fsOutputs items).map prime).Nodup ∧
    ∀ before s line after, items = before ++ (s, line) :: after → s ≠ .input → s ≠ .outputF → s ≠ .outputS →
      line.length ≤ maxLine ∧ ∃ φ, ReadsLine line φ ∧ φ.Wf 0 ∧
        ∀ x ∈ φ.vars, x ∈ usable s.plain (fsItemsOf .input before) (fsOutputs before)

/-- The text denotes the specification `sp`, in which the outputs in `slow` are slow and the other ones are fast. -/
def FSDenotes (text : List Char) (sp : SpecFile) (slow : List Word) : Prop :=
  ∃ items, FSContent none (splitLines text) items ∧
    sp.inputs = fsItemsOf .input items ∧
    sp.outputs = fsOutputs items ∧
    slow = fsItemsOf .outputS items ∧
    List.Forall₂ ReadsLine (fsItemsOf .envInit items) sp.envInit ∧
    List.Forall₂ ReadsLine (fsItemsOf .sysInit items) sp.sysInit ∧
    List.Forall₂ ReadsLine (fsItemsOf .envTrans items) sp.envTrans ∧
    List.Forall₂ ReadsLine (fsItemsOf .sysTrans items) sp.sysTrans ∧
    List.Forall₂ ReadsLine (fsItemsOf .envLiveness items) sp.envLiveness ∧
    List.Forall₂ ReadsLine (fsItemsOf .sysLiveness items) sp.sysLiveness

/-- The intermediate position of a step: the next inputs and the next fast outputs, but still the current slow outputs. -/
def SpecFile.between (sp : SpecFile) (slow : List Word) (p q : Pos sp.In sp.Out) : Pos sp.In sp.Out :=
  (q.1, fun x => if x.1 ∈ slow then p.2 x else q.2 x)

/-- A position is safe if some step that obeys the safety guarantees starts there and some such step ends there. -/
def SpecFile.SafePos (sp : SpecFile) (p : Pos sp.In sp.Out) : Prop :=
  (∃ q, sp.game.safetySys p q) ∧ ∃ q, sp.game.safetySys q p

/-- The game in which the intermediate position of every step has to be safe. -/
def SpecFile.fsGame (sp : SpecFile) (slow : List Word) : Game sp.In sp.Out :=
  { sp.game with safetySys := fun p q => sp.game.safetySys p q ∧ sp.SafePos (sp.between slow p q) }

end Slugs.Spec
