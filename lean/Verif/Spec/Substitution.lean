import Verif.Spec.StructuredFile

/-!
Replacing integer variables in structured specifications: what it means.  (The tool has no documentation but the comments in
`/repo/tools/StructuredSlugsParser/integerVariableSubstitutor.py`.)

A replacement for the integer variable `x` consists of two terms `a` and `b`: `a` is put in the place of `x`, and `b` is added on the other side of the comparison.  So
`x` is replaced by the difference of `a` and `b`.
-/

namespace Slugs.Spec.Structured

/-- The text is the number `e`, in infix notation. -/
def IsSum (bools : List Word) (s : List Char) (e : NExp) : Prop := ∃ ts, Lexes bools s ts ∧ InfixSum ts e

/-- The terms for the names that are replaced. -/
abbrev Terms := Word → Option (NExp × NExp)

/-- The texts that are given for the names are these terms. -/
def TermsFor (bools : List Word) (texts : Word → Option (List Char × List Char)) (R : Terms) : Prop :=
  ∀ x, (texts x = none ∧ R x = none) ∨ ∃ s t a b, texts x = some (s, t) ∧ R x = some (a, b) ∧ IsSum bools s a ∧ IsSum bools t b

/-- The values `val` and `val'` of the names before and after the replacement fit: those of `x` are the difference of the terms for it, if it is replaced. -/
def FitsAt (R : Terms) (bounds' : Bounds) (val val' : Word → Int) (x : Word) : Prop :=
  match R x with
  | some (a, b) => val x = a.value bounds' val' - b.value bounds' val'
  | none => val' x = val x

/-- The terms that are used for the name are proper. -/
def ProperAt (R : Terms) (bounds' : Bounds) (x : Word) : Prop :=
  match R x with
  | some (a, b) => a.Proper bounds' false ∧ b.Proper bounds' false
  | none => (NExp.var x).Proper bounds' false

/-- The names that are used instead of `x`. -/
def namesFor (R : Terms) (x : Word) : List Word :=
  match R x with
  | some (a, b) => a.names ++ b.names
  | none => [x]

/-- No use of `LEASTSIGNIFICANTBITOVERWRITES`. -/
def NExp.Plain : NExp → Prop
  | .num _ => True
  | .var _ => True
  | .add a b => a.Plain ∧ b.Plain
  | .overwrite _ _ => False

def SFml.Plain : SFml → Prop
  | .tt => True
  | .ff => True
  | .atom _ => True
  | .cmp _ a b => a.Plain ∧ b.Plain
  | .not f => f.Plain
  | .next f => f.Plain
  | .and f g => f.Plain ∧ g.Plain
  | .or f g => f.Plain ∧ g.Plain
  | .imp f g => f.Plain ∧ g.Plain
  | .iff f g => f.Plain ∧ g.Plain

/-! ### Files

The use of the tool that we look at: integer variables are replaced by others with shifted values, say, because the lower bounds are negative. -/

/-- The line declares the variable, as with `IsDecl`, but lower bounds can be negative. -/
inductive Declares : List Char → Decl → Prop
  | bool {x} : Tidy x → Declares x ⟨x, none⟩
  | num {x s1 s2 a s3 s4 b lo hi} : Tidy x → (∀ c ∈ s1 ++ s2 ++ s3 ++ s4, pySpace c) → IsNumber a lo → IsNumber b hi → lo ≤ hi →
      Declares (x ++ s1 ++ ':' :: s2 ++ a ++ s3 ++ txt!"..." ++ s4 ++ b) ⟨x, some (lo, hi)⟩

/-- The integer variable `x`, declared with the line `old`, is replaced by `y`, declared with the line `new`.  The values of `y` are greater by the number `k`. -/
structure Shift where
  old : List Char
  new : List Char
  x : Word
  y : Word
  k : List Char

def Shift.amount (r : Shift) : Nat := digitsVal r.k

/-- The lines for it in the file with the replacements. -/
def Shift.lines (r : Shift) : List (List Char) :=
  [r.old ++ ',' :: r.new, r.x ++ ',' :: (r.y ++ ',' :: r.k), prime r.x ++ ',' :: (prime r.y ++ ',' :: r.k)]

/-- The file with the replacements, without blank lines and comments. -/
def ShiftFile (text : List Char) (rs : List Shift) : Prop :=
  ((splitLines (universal text)).map pyTrim).filter (fun l => l ≠ [] ∧ l.head? ≠ some '#') = rs.flatMap Shift.lines

/-- The declaration of a variable after the replacement. -/
def Decl.shift (rs : List Shift) (d : Decl) : Decl :=
  match rs.find? (fun r => r.x = d.name), d.range with
  | some r, some (lo, hi) => ⟨r.y, some (lo + r.amount, hi + r.amount)⟩
  | _, _ => d

/-- The declarations `old` are those of the variables `x`. -/
def OldLine (rs : List Shift) (line : List Char) (d : Decl) : Prop := ∀ r ∈ rs, r.old = line ↔ r.x = d.name

/-- The constraint is used properly: as with `SSpec.Allows`, but for variables with any lower bound, and without `LEASTSIGNIFICANTBITOVERWRITES`. -/
def SSpec.Uses (S : SSpec) (s : Section) : Constraint → Prop
  | .infix f => f.Plain ∧ (∀ x ∈ f.atoms false, x ∈ usable s S.inputNames S.outputNames) ∧
      ∀ x ∈ f.numbers false, x ∈ usable s S.inputNames S.outputNames ∧ ∃ q, S.bounds (unprimed x) = some q
  | .plain φ => φ.Wf 0 ∧ ∀ x ∈ φ.vars, x ∈ usable s (SSpec.boolsOf S.inputs) (SSpec.boolsOf S.outputs)

/-- The text denotes the specification. -/
structure SourceDenotes (rs : List Shift) (text : List Char) (S : SSpec) : Prop where
  content : ∃ items, SContent none (splitLines (universal text)) items ∧
    List.Forall₂ (fun l d => Declares l d ∧ OldLine rs l d) (itemsOf .input items) S.inputs ∧
    List.Forall₂ (fun l d => Declares l d ∧ OldLine rs l d) (itemsOf .output items) S.outputs ∧
    List.Forall₂ (IsConstraint S.bools) (itemsOf .envInit items) S.envInit ∧
    List.Forall₂ (IsConstraint S.bools) (itemsOf .sysInit items) S.sysInit ∧
    List.Forall₂ (IsConstraint S.bools) (itemsOf .envTrans items) S.envTrans ∧
    List.Forall₂ (IsConstraint S.bools) (itemsOf .sysTrans items) S.sysTrans ∧
    List.Forall₂ (IsConstraint S.bools) (itemsOf .envLiveness items) S.envLiveness ∧
    List.Forall₂ (IsConstraint S.bools) (itemsOf .sysLiveness items) S.sysLiveness
  nodup : S.names.Nodup
  envInit : ∀ c ∈ S.envInit, S.Uses .envInit c
  sysInit : ∀ c ∈ S.sysInit, S.Uses .sysInit c
  envTrans : ∀ c ∈ S.envTrans, S.Uses .envTrans c
  sysTrans : ∀ c ∈ S.sysTrans, S.Uses .sysTrans c
  envLiveness : ∀ c ∈ S.envLiveness, S.Uses .envLiveness c
  sysLiveness : ∀ c ∈ S.sysLiveness, S.Uses .sysLiveness c

/-- The replacements fit to the specification: each is for a declared integer variable, with a declaration for the shifted values; no name is used for two variables,
neither before nor after the replacement; and no negative lower bounds remain. -/
structure Shifts (rs : List Shift) (S : SSpec) : Prop where
  once : (rs.map Shift.x).Nodup
  number : ∀ r ∈ rs, r.k ≠ [] ∧ ∀ c ∈ r.k, isDigit c
  declared : ∀ r ∈ rs, ∃ lo hi, ⟨r.x, some (lo, hi)⟩ ∈ S.inputs ++ S.outputs ∧ IsDecl r.new ⟨r.y, some (lo + r.amount, hi + r.amount)⟩
  fresh : ((S.inputs ++ S.outputs).map fun d => (d.shift rs).name).Nodup
  rest : ∀ d ∈ S.inputs ++ S.outputs, ∀ lo hi, d.range = some (lo, hi) → (∀ r ∈ rs, r.x ≠ d.name) → 0 ≤ lo

end Slugs.Spec.Structured
