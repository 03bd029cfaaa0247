import Verif.Spec.SpecFile

/-!
Circuits in the ASCII format of AIGER ("aag"), and the realizability problem for them that is solved in the reactive synthesis competition: inputs whose names start
with `controllable_` are chosen by the controller, the others by the environment, and the outputs must never become true.
-/

namespace Slugs.Spec

/-- A circuit.  Numbers are *literals*: `2 * n` stands for the variable `n`, and `2 * n + 1` for its negation; the variable 0 is always false. -/
structure Aag where
  maxVar : Nat
  inputs : List Nat
  /-- Literals of latches and the literals of their next values. -/
  latches : List (Nat × Nat)
  outputs : List Nat
  /-- Literals of gates and their two operands. -/
  gates : List (Nat × Nat × Nat)
  inputNames : List Word
  latchNames : List Word
  outputNames : List Word
  comment : List Char

namespace Aag

/-! ### The text -/

/-- Numbers, separated by blanks. -/
def numbers (ns : List Nat) : List Char := joinWords (ns.map decimal)

/-- The entries of the symbol table for names that are numbered from `k` on. -/
def symbols (kind : Char) : Nat → List Word → List (List Char)
  | _, [] => []
  | k, x :: xs => (kind :: decimal k ++ ' ' :: x) :: symbols kind (k + 1) xs

/-- The lines before the comment. -/
def lines (A : Aag) : List (List Char) :=
  [txt!"aag " ++ numbers [A.maxVar, A.inputs.length, A.latches.length, A.outputs.length, A.gates.length]] ++
    A.inputs.map (fun l => numbers [l]) ++ A.latches.map (fun l => numbers [l.1, l.2]) ++ A.outputs.map (fun l => numbers [l]) ++
    A.gates.map (fun g => numbers [g.1, g.2.1, g.2.2]) ++
    symbols 'i' 0 A.inputNames ++ symbols 'l' 0 A.latchNames ++ symbols 'o' 0 A.outputNames ++ [txt!"c"]

/-- The file for a circuit. -/
def text (A : Aag) : List Char := (A.lines.flatMap fun l => l ++ ['\n']) ++ A.comment

/-! ### Well-formed circuits -/

/-- The literals that are defined. -/
def defined (A : Aag) : List Nat := A.inputs ++ A.latches.map Prod.fst ++ A.gates.map Prod.fst

/-- A literal of a variable in the list, or of the constant. -/
def Over (known : List Nat) (l : Nat) : Prop := l < 2 ∨ 2 * (l / 2) ∈ known

/-- Every gate only uses literals that are known or have been computed before. -/
inductive Ordered : List Nat → List (Nat × Nat × Nat) → Prop
  | nil {known} : Ordered known []
  | cons {known g a b gs} : Over known a → Over known b → Ordered (g :: known) gs → Ordered known ((g, a, b) :: gs)

/-- The circuit is well-formed: no variable is defined twice, none is larger than `maxVar`, only defined variables are used, there are no cycles of gates, and
everything has a name. -/
structure Valid (A : Aag) : Prop where
  even : ∀ l ∈ A.defined, l % 2 = 0 ∧ 2 ≤ l ∧ l / 2 ≤ A.maxVar
  distinct : A.defined.Nodup
  next : ∀ l ∈ A.latches, Over A.defined l.2
  output : ∀ l ∈ A.outputs, Over A.defined l
  acyclic : ∃ gs, gs.Perm A.gates ∧ Ordered (A.inputs ++ A.latches.map Prod.fst) gs
  inputNames : A.inputNames.length = A.inputs.length
  latchNames : A.latchNames.length = A.latches.length
  outputNames : A.outputNames.length = A.outputs.length

/-! ### Behaviour -/

/-- The value of a literal. -/
def lit (v : Nat → Bool) (l : Nat) : Bool := if l % 2 = 0 then v (l / 2) else !v (l / 2)

/-- `x t` are the values of the variables in round `t`, when the input with the number `k` has the value `inp t k`. -/
structure Run (A : Aag) (inp : Nat → Nat → Bool) (x : Nat → Nat → Bool) : Prop where
  const : ∀ t, x t 0 = false
  input : ∀ t k l, A.inputs[k]? = some l → lit (x t) l = inp t k
  reset : ∀ l ∈ A.latches, lit (x 0) l.1 = false
  next : ∀ t, ∀ l ∈ A.latches, lit (x (t + 1)) l.1 = lit (x t) l.2
  gate : ∀ t, ∀ g ∈ A.gates, lit (x t) g.1 = (lit (x t) g.2.1 && lit (x t) g.2.2)

/-- The input with the number `k` is chosen by the controller. -/
def Controllable (A : Aag) (k : Nat) : Prop := ∃ x, A.inputNames[k]? = some x ∧ txt!"controllable_" <+: x

/-- What has been seen up to round `t`, the latest first. -/
def seen {α : Type} (u : Nat → α) : Nat → List α
  | 0 => [u 0]
  | t + 1 => u (t + 1) :: seen u t

open Classical in
/-- The inputs when the environment chooses `u`, and the controller follows `σ`. -/
noncomputable def played (A : Aag) (σ : List (Nat → Bool) → Nat → Bool) (u : Nat → Nat → Bool) : Nat → Nat → Bool := fun t k =>
  if A.Controllable k then σ (seen u t) k else u t k

/-- There is a controller with which no output ever becomes true, whatever the environment does. -/
def Realizable (A : Aag) : Prop :=
  ∃ σ : List (Nat → Bool) → Nat → Bool, ∀ u x, A.Run (A.played σ u) x → ∀ t, ∀ o ∈ A.outputs, lit (x t) o = false

end Aag

/-- The assumptions hold up to round `t`. -/
def Game.AssumedUpTo {I O : Type} (g : Game I O) (p : Nat → Pos I O) (t : Nat) : Prop := g.initEnv (p 0).1 ∧ ∀ k < t, g.safetyEnv (p k) (p (k + 1)).1

/-- The safety guarantees hold in round `t`. -/
def Game.Kept {I O : Type} (g : Game I O) (p : Nat → Pos I O) : Nat → Prop
  | 0 => g.initSys (p 0)
  | t + 1 => g.safetySys (p t) (p (t + 1))

/-- The position when `v` are the values of the declared variables, first the inputs and then the outputs. -/
def SpecFile.values (sp : SpecFile) (v : Nat → Bool) : Pos sp.In sp.Out :=
  (fun x => v (sp.inputs.idxOf x.1), fun y => v (sp.inputs.length + sp.outputs.idxOf y.1))

/-- The constraints are written in the plainest way: words are separated by single blanks, and numbers have no signs or leading zeros. -/
def WrittenPlainly (text : List Char) (sp : SpecFile) : Prop :=
  ∃ items, Content none (splitLines text) items ∧
    itemsOf .envInit items = sp.envInit.map Fml.text ∧ itemsOf .sysInit items = sp.sysInit.map Fml.text ∧
    itemsOf .envTrans items = sp.envTrans.map Fml.text ∧ itemsOf .sysTrans items = sp.sysTrans.map Fml.text

end Slugs.Spec
