import Verif.Spec.SpecFile

/-!
What an estimator for incomplete information is (option `--computeIncompleteInformationEstimator`): some of the inputs cannot be observed; the outputs
are estimates of what has happened, and an estimator computes new estimates from the observable inputs and the old estimates, such that the guarantees
hold whatever the values of the unobservable inputs are.
-/

namespace Slugs.Spec

/-- The sections of a file. -/
inductive ESection where
  | observable | unobservable | controllable | output | envInit | sysInit | envTrans | sysTrans
  deriving DecidableEq, Repr

/-- The line with which a section starts. -/
def ESection.header : ESection → List Char
  | .observable => txt!"[OBSERVABLE_INPUT]"
  | .unobservable => txt!"[UNOBSERVABLE_INPUT]"
  | .controllable => txt!"[CONTROLLABLE_INPUT]"
  | .output => txt!"[OUTPUT]"
  | .envInit => txt!"[ENV_INIT]"
  | .sysInit => txt!"[SYS_INIT]"
  | .envTrans => txt!"[ENV_TRANS]"
  | .sysTrans => txt!"[SYS_TRANS]"

/-- The section of an ordinary file. -/
def ESection.plain : ESection → Section
  | .observable => .input
  | .unobservable => .input
  | .controllable => .input
  | .output => .output
  | .envInit => .envInit
  | .sysInit => .sysInit
  | .envTrans => .envTrans
  | .sysTrans => .sysTrans

/-- As `Content`, with the other section headers. -/
inductive EContent : Option ESection → List (List Char) → List (ESection × List Char) → Prop
  | nil {cur} : EContent cur [] []
  | skip {cur l ls items} : trim l = [] ∨ (trim l).head? = some '#' → EContent cur ls items → EContent cur (l :: ls) items
  | header {cur l ls items} (s : ESection) : trim l = s.header → EContent (some s) ls items → EContent cur (l :: ls) items
  | item {s l ls items} : trim l ≠ [] → (trim l).head? ≠ some '#' → (trim l).head? ≠ some '[' →
      EContent (some s) ls items → EContent (some s) (l :: ls) ((s, trim l) :: items)

/-- The items of a section, in order. -/
def eItemsOf (s : ESection) (items : List (ESection × List Char)) : List (List Char) :=
  (items.filter (fun p => p.1 = s)).map (fun p => p.2)

/-- All inputs, in order. -/
def eInputs (items : List (ESection × List Char)) : List (List Char) :=
  (items.filter fun p => p.1 = .observable ∨ p.1 = .unobservable ∨ p.1 = .controllable).map (fun p => p.2)

/-- As `ProperFile`: declared names are distinct, lines are not too long, and constraints are well-formed formulas over variables that have been declared
before and can be used in the section. -/
def EProperFile (maxLine : Nat) (text : List Char) : Prop :=
  ∃ items, EContent none (splitLines text) items ∧
    (eInputs items ++ eItemsOf .output items ++ (eInputs items).map prime ++ (eItemsOf .output items).map prime).Nodup ∧
    ∀ before s line after, items = before ++ (s, line) :: after → s ≠ .observable → s ≠ .unobservable → s ≠ .controllable → s ≠ .output →
      line.length ≤ maxLine ∧ ∃ φ, ReadsLine line φ ∧ φ.Wf 0 ∧
        ∀ x ∈ φ.vars, x ∈ usable s.plain (eInputs before) (eItemsOf .output before)

/-- The text denotes the specification `sp` (without liveness), in which the inputs in `unobs` cannot be observed and the inputs in `ctrl` can be
controlled. -/
def EDenotes (text : List Char) (sp : SpecFile) (unobs ctrl : List Word) : Prop :=
  ∃ items, EContent none (splitLines text) items ∧
    sp.inputs = eInputs items ∧
    sp.outputs = eItemsOf .output items ∧
    unobs = eItemsOf .unobservable items ∧
    ctrl = eItemsOf .controllable items ∧
    List.Forall₂ ReadsLine (eItemsOf .envInit items) sp.envInit ∧
    List.Forall₂ ReadsLine (eItemsOf .sysInit items) sp.sysInit ∧
    List.Forall₂ ReadsLine (eItemsOf .envTrans items) sp.envTrans ∧
    List.Forall₂ ReadsLine (eItemsOf .sysTrans items) sp.sysTrans ∧
    sp.envLiveness = [] ∧ sp.sysLiveness = []

/-- The positions that can be reached when every step is in `step`. -/
inductive SpecFile.ReachBy (sp : SpecFile) (step : Pos sp.In sp.Out → Pos sp.In sp.Out → Prop) : Pos sp.In sp.Out → Prop
  | start {p} : sp.game.initEnv p.1 → sp.game.initSys p → sp.ReachBy step p
  | step {p q} : sp.ReachBy step p → step p q → sp.ReachBy step q

/-- Two positions that the estimator cannot distinguish: the estimates and all inputs but the unobservable ones are the same. -/
def SpecFile.SameObs (sp : SpecFile) (unobs : List Word) (p p' : Pos sp.In sp.Out) : Prop :=
  p'.2 = p.2 ∧ ∀ x, x.1 ∉ unobs → p'.1 x = p.1 x

/-- A position that can be reached in the model: all safety assumptions and guarantees hold on the way. -/
def SpecFile.Possible (sp : SpecFile) : Pos sp.In sp.Out → Prop :=
  sp.ReachBy fun p q => sp.game.safetyEnv p q.1 ∧ sp.game.safetySys p q

/-- The update of the estimates in the step from `p` to `q` is right whatever the unobservable inputs are and have been. -/
def SpecFile.Sound (sp : SpecFile) (unobs : List Word) (p q : Pos sp.In sp.Out) : Prop :=
  ∀ p' q', sp.SameObs unobs p p' → sp.SameObs unobs q q' → sp.Possible p' → sp.game.safetyEnv p' q'.1 → sp.game.safetySys p' q'

/-- Outputs whose names start with `min_` should be true and those whose names start with `max_` should be false, if possible.  (They are bits of lower
and upper bounds, the most significant bit coming last.) -/
def preferred (x : Word) : Option Bool :=
  if x.take 4 = txt!"min_" then some true else if x.take 4 = txt!"max_" then some false else none

/-- The estimates `o'` are better than `o`: a preferred value is gained, and no value of such an output that is declared later changes. -/
def SpecFile.Better (sp : SpecFile) (o' o : sp.Out) : Prop :=
  ∃ l r x b, sp.outputs = l ++ x :: r ∧ preferred x = some b ∧
    (∀ h : x ∈ sp.outputs, o' ⟨x, h⟩ = b ∧ o ⟨x, h⟩ ≠ b) ∧
    ∀ y ∈ r, preferred y ≠ none → ∀ h : y ∈ sp.outputs, o' ⟨y, h⟩ = o ⟨y, h⟩

/-- The most permissive optimal estimator. -/
def SpecFile.Estimates (sp : SpecFile) (unobs : List Word) (p q : Pos sp.In sp.Out) : Prop :=
  sp.Sound unobs p q ∧ ∀ o, sp.Sound unobs p (q.1, o) → ¬ sp.Better o q.2

/-- A position that can be reached when the environment obeys the safety assumptions and the estimator is used. -/
def SpecFile.Estimated (sp : SpecFile) (unobs : List Word) : Pos sp.In sp.Out → Prop :=
  sp.ReachBy fun p q => sp.game.safetyEnv p q.1 ∧ sp.Estimates unobs p q

/-- The environment of the estimator as it can be observed: with the same observations and estimates as in `p`, the inputs in `q` that can neither be
controlled nor escape observation are possible. -/
def SpecFile.Observable (sp : SpecFile) (unobs ctrl : List Word) (p q : Pos sp.In sp.Out) : Prop :=
  ∃ p' i', sp.SameObs unobs p p' ∧ (∀ x, x.1 ∉ unobs → x.1 ∉ ctrl → i' x = q.1 x) ∧ sp.Estimated unobs p' ∧ sp.game.safetyEnv p' i'

/-- The environment has no observable move. -/
def SpecFile.EnvStuck (sp : SpecFile) (unobs ctrl : List Word) (p : Pos sp.In sp.Out) : Prop :=
  sp.Estimated unobs p ∧ ∀ q, ¬ sp.Observable unobs ctrl p q

/-- The estimator has no move for some next inputs. -/
def SpecFile.EstimatorStuck (sp : SpecFile) (unobs ctrl : List Word) (p : Pos sp.In sp.Out) (i : sp.In) : Prop :=
  sp.Estimated unobs p ∧ (∃ q, sp.Observable unobs ctrl p q) ∧ ∀ o, ¬ sp.Estimates unobs p (i, o)

end Slugs.Spec
