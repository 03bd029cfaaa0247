import Verif.Spec.SpecFile

/-!
What a specification with a non-deterministic motion abstraction is (option `--nonDeterministicMotion`, "Computes a controller using an non-deterministic
motion abstraction."): a robot moves among motion states; in every step the environment chooses the next inputs, then the system chooses the next values of
the motion control outputs, and then the robot ends up in some motion state that the abstraction allows for its current motion state and these controls.
This file does not refer to the code of slugs.
-/

namespace Slugs.Spec

section
variable {I Y : Type}

/-- The same values of all outputs that are not motion state outputs (`S` are the motion state outputs). -/
def SameControls (S : Y → Prop) (o o' : Y → Bool) : Prop := ∀ y, ¬ S y → o y = o' y

/-- The same motion state. -/
def SameMotion (S : Y → Prop) (o o' : Y → Bool) : Prop := ∀ y, S y → o y = o' y

/-- Histories that can arise when the system follows `σ` from `s` and the environment obeys the safety assumptions.  The values of `σ` matter only for the
controls; `rob o o'` says that with the controls of `o'`, the robot may move from the motion state of `o` to that of `o'`. -/
inductive MotionHist (S : Y → Prop) (rob : (Y → Bool) → (Y → Bool) → Prop) (g : Game I (Y → Bool)) (σ : SysStrategy I (Y → Bool)) (s : Pos I (Y → Bool)) :
    History I (Y → Bool) → Prop
  | start : MotionHist S rob g σ s [s]
  | step {cur : Pos I (Y → Bool)} {h : History I (Y → Bool)} {i : I} {o : Y → Bool} :
      MotionHist S rob g σ s (cur :: h) → g.safetyEnv cur i → SameControls S (σ (cur :: h) i) o → rob cur.2 o →
      MotionHist S rob g σ s ((i, o) :: cur :: h)

/-- The robot moves if it can: in a step from `p` to `q`, the motion state changes unless with the controls of `q` it cannot change. -/
def MovesIfPossible (S : Y → Prop) (rob : (Y → Bool) → (Y → Bool) → Prop) (p q : Pos I (Y → Bool)) : Prop :=
  (∃ o, SameControls S q.2 o ∧ rob p.2 o ∧ ¬ SameMotion S p.2 o) → ¬ SameMotion S p.2 q.2

/-- `σ` is winning for the system: the controls it chooses are ones with which the robot can move, all possible moves obey the safety guarantees, and every
infinite play satisfies the liveness objective, where it may also be assumed that the robot always eventually moves if it can. -/
def MotionWinning (S : Y → Prop) (rob : (Y → Bool) → (Y → Bool) → Prop) (g : Game I (Y → Bool)) (σ : SysStrategy I (Y → Bool)) (s : Pos I (Y → Bool)) : Prop :=
  (∀ cur h i, MotionHist S rob g σ s (cur :: h) → g.safetyEnv cur i →
    (∃ o, SameControls S (σ (cur :: h) i) o ∧ rob cur.2 o) ∧
    ∀ o, SameControls S (σ (cur :: h) i) o → rob cur.2 o → g.safetySys cur (i, o)) ∧
  (∀ p : Nat → Pos I (Y → Bool), (∀ n, MotionHist S rob g σ s (prefixHist p n)) → InfOften (MovesIfPossible S rob) p → g.Live p)

/-- The system wins from `s`. -/
def MotionWins (S : Y → Prop) (rob : (Y → Bool) → (Y → Bool) → Prop) (g : Game I (Y → Bool)) (s : Pos I (Y → Bool)) : Prop :=
  ∃ σ, MotionWinning S rob g σ s

end

/-! ### Files -/

/-- The sections of a file. -/
inductive MSection where
  | input | motionState | motionControl | otherOutput | envInit | sysInit | envTrans | sysTrans | envLiveness | sysLiveness | regions
  deriving DecidableEq, Repr

/-- The line with which a section starts. -/
def MSection.header : MSection → List Char
  | .input => txt!"[INPUT]"
  | .motionState => txt!"[MOTION STATE OUTPUT]"
  | .motionControl => txt!"[MOTION CONTROLLER OUTPUT]"
  | .otherOutput => txt!"[OTHER OUTPUT]"
  | .envInit => txt!"[ENV_INIT]"
  | .sysInit => txt!"[SYS_INIT]"
  | .envTrans => txt!"[ENV_TRANS]"
  | .sysTrans => txt!"[SYS_TRANS]"
  | .envLiveness => txt!"[ENV_LIVENESS]"
  | .sysLiveness => txt!"[SYS_LIVENESS]"
  | .regions => txt!"[ABSTRACTION_REGION_BDDS]"

/-- Whether the section contains constraints. -/
def MSection.IsConstraint (s : MSection) : Prop := s ∈ [MSection.envInit, .sysInit, .envTrans, .sysTrans, .envLiveness, .sysLiveness]

/-- As `Content`, with the other section headers. -/
inductive MContent : Option MSection → List (List Char) → List (MSection × List Char) → Prop
  | nil {cur} : MContent cur [] []
  | skip {cur l ls items} : trim l = [] ∨ (trim l).head? = some '#' → MContent cur ls items → MContent cur (l :: ls) items
  | header {cur l ls items} (s : MSection) : trim l = s.header → MContent (some s) ls items → MContent cur (l :: ls) items
  | item {s l ls items} : trim l ≠ [] → (trim l).head? ≠ some '#' → (trim l).head? ≠ some '[' →
      MContent (some s) ls items → MContent (some s) (l :: ls) ((s, trim l) :: items)

/-- The items of a section, in order. -/
def mItemsOf (s : MSection) (items : List (MSection × List Char)) : List (List Char) :=
  (items.filter (fun p => p.1 = s)).map (fun p => p.2)

/-- The motion states and the motion controls, in order. -/
def mOutputs (items : List (MSection × List Char)) : List (List Char) :=
  (items.filter fun p => p.1 = .motionState ∨ p.1 = .motionControl).map (fun p => p.2)

/-- A predicate on bit vectors, as stored in a BDD file. -/
abbrev BitPred := List Bool → Bool

/-- A line of the section of region BDDs: a name and the name of a file. -/
def RegionLine (line : List Char) (name file : List Char) : Prop := line = name ++ ' ' :: file ∧ ' ' ∉ name

/-- A specification: an ordinary specification whose outputs are divided into motion state and motion control outputs, with named regions of motion states and
the abstraction of the robot.  A motion state is given to these predicates as the list of the values of the motion state outputs in reverse order of their
declaration ("least significant bit first"). -/
structure MotionSpec where
  file : SpecFile
  motion : List Word
  controls : List Word
  regions : List (Word × BitPred)
  robot : BitPred

/-- The text, together with the BDD files and the abstraction of the robot, denotes the specification. -/
def MDenotes (bddFile : List Char → Option BitPred) (robot : BitPred) (text : List Char) (m : MotionSpec) : Prop :=
  ∃ items, MContent none (splitLines text) items ∧
    m.file.inputs = mItemsOf .input items ∧ m.file.outputs = mOutputs items ∧
    m.motion = mItemsOf .motionState items ∧ m.controls = mItemsOf .motionControl items ∧
    List.Forall₂ (fun line r => ∃ f, RegionLine line r.1 f ∧ bddFile f = some r.2) (mItemsOf .regions items) m.regions ∧ m.robot = robot ∧
    List.Forall₂ ReadsLine (mItemsOf .envInit items) m.file.envInit ∧
    List.Forall₂ ReadsLine (mItemsOf .sysInit items) m.file.sysInit ∧
    List.Forall₂ ReadsLine (mItemsOf .envTrans items) m.file.envTrans ∧
    List.Forall₂ ReadsLine (mItemsOf .sysTrans items) m.file.sysTrans ∧
    List.Forall₂ ReadsLine (mItemsOf .envLiveness items) m.file.envLiveness ∧
    List.Forall₂ ReadsLine (mItemsOf .sysLiveness items) m.file.sysLiveness

/-- The names of the regions in a list of items. -/
def regionNames (items : List (MSection × List Char)) : List Word := (mItemsOf .regions items).map fun l => l.takeWhile (· ≠ ' ')

/-- The names that a constraint can use in a section, given what has been declared so far.  (Constraints on the initial motion state are guarantees,
safety assumptions are about the next inputs; the last controls can nowhere be referred to.) -/
def mUsable (s : MSection) (items : List (MSection × List Char)) : List Word :=
  let i := mItemsOf .input items
  let m := mItemsOf .motionState items
  let r := regionNames items
  match s with
  | .envInit => i
  | .sysInit => i ++ m ++ r
  | .envTrans | .envLiveness => i ++ m ++ r ++ i.map prime
  | .sysTrans | .sysLiveness => i ++ m ++ r ++ i.map prime ++ m.map prime ++ r.map prime ++ (mItemsOf .motionControl items).map prime
  | _ => []

/-- A proper file: there are no other outputs; no name is used twice; every constraint is a well-formed formula over names that have been declared before it
and that can be used in its section; and regions are defined after the motion states. -/
def MProperFile (maxLine : Nat) (bddFile : List Char → Option BitPred) (text : List Char) : Prop :=
  ∃ items, MContent none (splitLines text) items ∧
    mItemsOf .otherOutput items = [] ∧
    (mItemsOf .input items ++ mOutputs items ++ (mItemsOf .input items).map prime ++ (mOutputs items).map prime ++
      regionNames items ++ (regionNames items).map prime).Nodup ∧
    (∀ before line after, items = before ++ (.regions, line) :: after →
      mItemsOf .motionState after = [] ∧ ∃ name f, RegionLine line name f ∧ (bddFile f).isSome) ∧
    ∀ before s line after, items = before ++ (s, line) :: after → s.IsConstraint →
      line.length ≤ maxLine ∧ ∃ φ, ReadsLine line φ ∧ φ.Wf 0 ∧ ∀ x ∈ φ.vars, x ∈ mUsable s before

namespace MotionSpec
variable (m : MotionSpec)

/-- The values of the given outputs, the one declared last first. -/
def bits (o : m.file.Out) (names : List Word) : List Bool := names.reverse.map fun x => if h : x ∈ m.file.outputs then o ⟨x, h⟩ else false

/-- The value of a name in a transition from `p` to `q`: the name of a region says whether the motion state is in the region. -/
def look (p q : Pos m.file.In m.file.Out) (x : Word) : Bool :=
  match m.regions.find? fun r => r.1 = x with
  | some r => r.2 (m.bits p.2 m.motion)
  | none =>
    match m.regions.find? fun r => prime r.1 = x with
    | some r => r.2 (m.bits q.2 m.motion)
    | none => m.file.look p q x

def holds (p q : Pos m.file.In m.file.Out) (φ : Fml) : Prop := φ.eval (m.look p q) [] = some true

/-- The constraints. -/
def game : Game m.file.In m.file.Out where
  initEnv i := ∀ φ ∈ m.file.envInit, m.holds (i, fun _ => false) (i, fun _ => false) φ
  initSys p := ∀ φ ∈ m.file.sysInit, m.holds p p φ
  safetyEnv p i := ∀ φ ∈ m.file.envTrans, m.holds p (i, fun _ => false) φ
  safetySys p q := ∀ φ ∈ m.file.sysTrans, m.holds p q φ
  assumptions := m.file.envLiveness.map fun φ p q => m.holds p q φ
  guarantees := m.file.sysLiveness.map fun φ p q => m.holds p q φ

/-- The motion state outputs. -/
def IsMotion (y : {x // x ∈ m.file.outputs}) : Prop := y.1 ∈ m.motion

/-- The abstraction: the bits of the current motion state, of the next controls and of the next motion state, in this order. -/
def moves (o o' : m.file.Out) : Prop := m.robot (m.bits o m.motion ++ m.bits o' m.controls ++ m.bits o' m.motion) = true

/-- The system wins from a position. -/
def Wins (p : Pos m.file.In m.file.Out) : Prop := MotionWins m.IsMotion m.moves m.game p

/-- Realizable: for all initial inputs that the environment may choose, there is an initial position that the guarantees allow and from which the system wins. -/
def Realizable : Prop := ∀ i, m.game.initEnv i → ∃ o, m.game.initSys (i, o) ∧ m.Wins (i, o)

/-- Realizable in the robotics semantics (initial guarantees are ignored): the system wins from all positions with allowed initial inputs. -/
def RoboticsRealizable : Prop := ∀ i, m.game.initEnv i → ∀ o, m.Wins (i, o)

end MotionSpec

end Slugs.Spec
