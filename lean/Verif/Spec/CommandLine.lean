import Verif.Spec.Text

/-!
What the command line means: the options, the permitted combinations, and the roles of the file names.
-/

namespace Slugs.Spec

/-- The options. -/
inductive Opt where
  | explicitStrategy | symbolicStrategy | simpleSymbolicStrategy | jsonOutput | sysInitRoboticsSemantics | computeWeakenedSafetyAssumptions
  | biasForAction | computeCNFFormOfTheSpecification | counterStrategy | simpleRecovery | fixedPointRecycling | interactiveStrategy | irosFastSlow
  | analyzeInterleaving | analyzeInitialPositions | restrictToReachableStates | analyzeAssumptions | analyzeSafetyLivenessInteraction
  | computeInterestingRunOfTheSystem | computeAbstractWinningTrace | extractExplicitPermissiveStrategy | computeIncompleteInformationEstimator
  | nonDeterministicMotion | twoDimensionalCost | cooperativeGR1Strategy
  deriving DecidableEq, Repr

/-- How an option is written. -/
def Opt.text : Opt → List Char
  | explicitStrategy => txt!"--explicitStrategy"
  | symbolicStrategy => txt!"--symbolicStrategy"
  | simpleSymbolicStrategy => txt!"--simpleSymbolicStrategy"
  | jsonOutput => txt!"--jsonOutput"
  | sysInitRoboticsSemantics => txt!"--sysInitRoboticsSemantics"
  | computeWeakenedSafetyAssumptions => txt!"--computeWeakenedSafetyAssumptions"
  | biasForAction => txt!"--biasForAction"
  | computeCNFFormOfTheSpecification => txt!"--computeCNFFormOfTheSpecification"
  | counterStrategy => txt!"--counterStrategy"
  | simpleRecovery => txt!"--simpleRecovery"
  | fixedPointRecycling => txt!"--fixedPointRecycling"
  | interactiveStrategy => txt!"--interactiveStrategy"
  | irosFastSlow => txt!"--IROSfastslow"
  | analyzeInterleaving => txt!"--analyzeInterleaving"
  | analyzeInitialPositions => txt!"--analyzeInitialPositions"
  | restrictToReachableStates => txt!"--restrictToReachableStates"
  | analyzeAssumptions => txt!"--analyzeAssumptions"
  | analyzeSafetyLivenessInteraction => txt!"--analyzeSafetyLivenessInteraction"
  | computeInterestingRunOfTheSystem => txt!"--computeInterestingRunOfTheSystem"
  | computeAbstractWinningTrace => txt!"--computeAbstractWinningTrace"
  | extractExplicitPermissiveStrategy => txt!"--extractExplicitPermissiveStrategy"
  | computeIncompleteInformationEstimator => txt!"--computeIncompleteInformationEstimator"
  | nonDeterministicMotion => txt!"--nonDeterministicMotion"
  | twoDimensionalCost => txt!"--twoDimensionalCost"
  | cooperativeGR1Strategy => txt!"--cooperativeGR1Strategy"

/-- How winning positions are computed. -/
inductive Alg where
  | standard | bias | recycling | cooperative | fastSlow | twoDim
  deriving DecidableEq, Repr

/-- What is done after the check. -/
inductive Use where
  | verdict (robotics : Bool)
  | explicit (recovery json robotics : Bool)
  | symbolic (recovery simple robotics : Bool)
  | permissive (robotics : Bool)
  | interactive
  deriving DecidableEq, Repr

/-- What a run does. -/
inductive Mode where
  | synthesis (alg : Alg) (use : Use)
  | motion (robotics : Bool)
  | motionInteractive
  | counter (robotics : Bool)
  | initialPositions (restrict : Bool)
  | assumptions | interleaving | interaction | trace | cnf | estimator | run | weakened
  deriving DecidableEq, Repr

/-- Options that are given or not. -/
def Opt.when (b : Bool) (o : Opt) : List Opt := if b then [o] else []

def Alg.options : Alg → List Opt
  | .standard => []
  | .bias => [.biasForAction]
  | .recycling => [.fixedPointRecycling]
  | .cooperative => [.cooperativeGR1Strategy]
  | .fastSlow => [.irosFastSlow]
  | .twoDim => [.twoDimensionalCost]

def Use.options : Use → List Opt
  | .verdict rob => Opt.sysInitRoboticsSemantics.when rob
  | .explicit rec json rob => .explicitStrategy :: (Opt.simpleRecovery.when rec ++ Opt.jsonOutput.when json ++ Opt.sysInitRoboticsSemantics.when rob)
  | .symbolic rec simple rob =>
    (if simple then .simpleSymbolicStrategy else .symbolicStrategy) :: (Opt.simpleRecovery.when rec ++ Opt.sysInitRoboticsSemantics.when rob)
  | .permissive rob => .extractExplicitPermissiveStrategy :: Opt.sysInitRoboticsSemantics.when rob
  | .interactive => [.interactiveStrategy]

/-- The options with which a run is requested. -/
def Mode.options : Mode → List Opt
  | .synthesis alg use => alg.options ++ use.options
  | .motion rob => .nonDeterministicMotion :: Opt.sysInitRoboticsSemantics.when rob
  | .motionInteractive => [.nonDeterministicMotion, .interactiveStrategy]
  | .counter rob => .counterStrategy :: Opt.sysInitRoboticsSemantics.when rob
  | .initialPositions restrict => .analyzeInitialPositions :: Opt.restrictToReachableStates.when restrict
  | .assumptions => [.analyzeAssumptions]
  | .interleaving => [.analyzeInterleaving]
  | .interaction => [.analyzeSafetyLivenessInteraction]
  | .trace => [.computeAbstractWinningTrace]
  | .cnf => [.computeCNFFormOfTheSpecification]
  | .estimator => [.computeIncompleteInformationEstimator]
  | .run => [.computeInterestingRunOfTheSystem]
  | .weakened => [.computeWeakenedSafetyAssumptions]

/-- Permissive strategies are not available for cooperative synthesis; everything else can be combined. -/
def Mode.available : Mode → Prop
  | .synthesis .cooperative (.permissive _) => False
  | _ => True

instance (m : Mode) : Decidable m.available := by
  unfold Mode.available; split <;> infer_instance

/-- An argument that starts with a dash is an option. -/
def isOption (a : List Char) : Bool := a.head? = some '-'

/-- The other arguments are file names. -/
def fileNames (args : List (List Char)) : List (List Char) := args.filter fun a => !isOption a

/-- The options among the arguments are those of the mode, in any order and possibly repeated. -/
def Mode.Requested (m : Mode) (args : List (List Char)) : Prop :=
  ∀ a, (a ∈ args ∧ isOption a = true) ↔ ∃ o ∈ m.options, a = o.text

/-- The number of input files. -/
def Mode.inputs : Mode → Nat
  | .synthesis .twoDim _ => 2
  | .motion _ => 2
  | .motionInteractive => 2
  | _ => 1

/-- Whether a name of an output file may be given. -/
def Mode.mayWrite : Mode → Bool
  | .synthesis _ (.explicit _ _ _) => true
  | .synthesis _ (.symbolic _ _ _) => true
  | .synthesis _ (.permissive _) => true
  | .counter _ => true
  | _ => false

/-- Whether a name of an output file must be given. -/
def Mode.mustWrite : Mode → Bool
  | .synthesis _ (.symbolic _ _ _) => true
  | _ => false

end Slugs.Spec
