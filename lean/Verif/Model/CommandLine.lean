import Verif.Model.Parser

/-!
Model of `main.cpp`: the options, the table of permitted combinations, and which file name is used for what.
-/

namespace Slugs.Model

open Slugs.Spec

/-- The classes that a run is assembled from.  Each constructor is a class template; its first argument is the base class, the others are the Boolean template
arguments in the same order. -/
inductive Plugin where
  /-- `GR1Context` -/
  | gr1
  /-- `XRoboticsSemantics<T>` -/
  | robotics (T : Plugin)
  /-- `XBiasForAction<T>` -/
  | bias (T : Plugin)
  /-- `XFixedPointRecycling<T>` -/
  | recycling (T : Plugin)
  /-- `XCooperativeGR1Strategy<T>` -/
  | cooperative (T : Plugin)
  /-- `XIROSFS<T>` -/
  | fastSlow (T : Plugin)
  /-- `XTwoDimensionalCost<T,isSysInitRoboticsSemantics,isSimpleRecovery>` -/
  | twoDim (T : Plugin) (robotics recovery : Bool)
  /-- `XNonDeterministicMotion<T,initSpecialRoboticsSemantics>` -/
  | motion (T : Plugin) (robotics : Bool)
  /-- `XCounterStrategy<T,specialRoboticsSemantics>` -/
  | counter (T : Plugin) (robotics : Bool)
  /-- `XAnalyzeAssumptions<T>` -/
  | assumptions (T : Plugin)
  /-- `XAnalyzeInitialPositions<T,restrictToReachablePositions>` -/
  | initialPositions (T : Plugin) (restrict : Bool)
  /-- `XInterleave<T>` -/
  | interleave (T : Plugin)
  /-- `XAnalyzeSafetyLivenessInteraction<T>` -/
  | interaction (T : Plugin)
  /-- `XAbstractWinningTraceGenerator<T>` -/
  | trace (T : Plugin)
  /-- `XComputeCNFFormOfTheSpecification<T>` -/
  | cnf (T : Plugin)
  /-- `XIncompleteInformationEstimatorSynthesis<T>` -/
  | estimator (T : Plugin)
  /-- `XComputeInterestingRunOfTheSystem<T>` -/
  | run (T : Plugin)
  /-- `XComputeWeakenedSafetyAssumptions<T>` -/
  | weakened (T : Plugin)
  /-- `XExtractExplicitStrategy<T,oneStepRecovery,jsonOutput>` -/
  | explicit (T : Plugin) (recovery json : Bool)
  /-- `XExtractSymbolicStrategy<T,oneStepRecovery,systemGoalEncoded>` -/
  | symbolic (T : Plugin) (recovery goalEncoded : Bool)
  /-- `XExtractPermissiveExplicitStrategy<T,oneStepRecovery>` -/
  | permissive (T : Plugin) (recovery : Bool)
  /-- `XExtractExplicitCounterStrategy<T>` -/
  | explicitCounter (T : Plugin)
  /-- `XInteractiveStrategy<T>` -/
  | interactive (T : Plugin)
  deriving DecidableEq, Repr

/-- The options, `main.cpp:67-91` (without the explanations). -/
def commandLineArguments : List (List Char) :=
  [txt!"--explicitStrategy",
    txt!"--symbolicStrategy",
    txt!"--simpleSymbolicStrategy",
    txt!"--jsonOutput",
    txt!"--sysInitRoboticsSemantics",
    txt!"--computeWeakenedSafetyAssumptions",
    txt!"--biasForAction",
    txt!"--computeCNFFormOfTheSpecification",
    txt!"--counterStrategy",
    txt!"--simpleRecovery",
    txt!"--fixedPointRecycling",
    txt!"--interactiveStrategy",
    txt!"--IROSfastslow",
    txt!"--analyzeInterleaving",
    txt!"--analyzeInitialPositions",
    txt!"--restrictToReachableStates",
    txt!"--analyzeAssumptions",
    txt!"--analyzeSafetyLivenessInteraction",
    txt!"--computeInterestingRunOfTheSystem",
    txt!"--computeAbstractWinningTrace",
    txt!"--extractExplicitPermissiveStrategy",
    txt!"--computeIncompleteInformationEstimator",
    txt!"--nonDeterministicMotion",
    txt!"--twoDimensionalCost",
    txt!"--cooperativeGR1Strategy"]

/-- The table `optionCombinations`, `main.cpp:113-251`. -/
def optionCombinations : List (List Char × Plugin) :=
  [(txt!"", .gr1),
    (txt!"--IROSfastslow --explicitStrategy --jsonOutput --simpleRecovery --sysInitRoboticsSemantics", .explicit (.robotics (.fastSlow .gr1)) true true),
    (txt!"--IROSfastslow --explicitStrategy --jsonOutput --simpleRecovery", .explicit (.fastSlow .gr1) true true),
    (txt!"--IROSfastslow --explicitStrategy --jsonOutput --sysInitRoboticsSemantics", .explicit (.robotics (.fastSlow .gr1)) false true),
    (txt!"--IROSfastslow --explicitStrategy --jsonOutput", .explicit (.fastSlow .gr1) false true),
    (txt!"--IROSfastslow --explicitStrategy --simpleRecovery --sysInitRoboticsSemantics", .explicit (.robotics (.fastSlow .gr1)) true false),
    (txt!"--IROSfastslow --explicitStrategy --simpleRecovery", .explicit (.fastSlow .gr1) true false),
    (txt!"--IROSfastslow --explicitStrategy --sysInitRoboticsSemantics", .explicit (.robotics (.fastSlow .gr1)) false false),
    (txt!"--IROSfastslow --explicitStrategy", .explicit (.fastSlow .gr1) false false),
    (txt!"--IROSfastslow --extractExplicitPermissiveStrategy --sysInitRoboticsSemantics", .permissive (.robotics (.fastSlow .gr1)) false),
    (txt!"--IROSfastslow --extractExplicitPermissiveStrategy", .permissive (.fastSlow .gr1) false),
    (txt!"--IROSfastslow --interactiveStrategy", .interactive (.fastSlow .gr1)),
    (txt!"--IROSfastslow --simpleRecovery --simpleSymbolicStrategy --sysInitRoboticsSemantics", .symbolic (.robotics (.fastSlow .gr1)) true true),
    (txt!"--IROSfastslow --simpleRecovery --simpleSymbolicStrategy", .symbolic (.fastSlow .gr1) true true),
    (txt!"--IROSfastslow --simpleRecovery --symbolicStrategy --sysInitRoboticsSemantics", .symbolic (.robotics (.fastSlow .gr1)) true false),
    (txt!"--IROSfastslow --simpleRecovery --symbolicStrategy", .symbolic (.fastSlow .gr1) true false),
    (txt!"--IROSfastslow --simpleSymbolicStrategy --sysInitRoboticsSemantics", .symbolic (.robotics (.fastSlow .gr1)) false true),
    (txt!"--IROSfastslow --simpleSymbolicStrategy", .symbolic (.fastSlow .gr1) false true),
    (txt!"--IROSfastslow --symbolicStrategy --sysInitRoboticsSemantics", .symbolic (.robotics (.fastSlow .gr1)) false false),
    (txt!"--IROSfastslow --symbolicStrategy", .symbolic (.fastSlow .gr1) false false),
    (txt!"--IROSfastslow --sysInitRoboticsSemantics", .robotics (.fastSlow .gr1)),
    (txt!"--IROSfastslow", .fastSlow .gr1),
    (txt!"--analyzeAssumptions", .assumptions .gr1),
    (txt!"--analyzeInitialPositions --restrictToReachableStates", .initialPositions .gr1 true),
    (txt!"--analyzeInitialPositions", .initialPositions .gr1 false),
    (txt!"--analyzeInterleaving", .interleave .gr1),
    (txt!"--analyzeSafetyLivenessInteraction", .interaction .gr1),
    (txt!"--biasForAction --explicitStrategy --jsonOutput --simpleRecovery --sysInitRoboticsSemantics", .explicit (.robotics (.bias .gr1)) true true),
    (txt!"--biasForAction --explicitStrategy --jsonOutput --simpleRecovery", .explicit (.bias .gr1) true true),
    (txt!"--biasForAction --explicitStrategy --jsonOutput --sysInitRoboticsSemantics", .explicit (.robotics (.bias .gr1)) false true),
    (txt!"--biasForAction --explicitStrategy --jsonOutput", .explicit (.bias .gr1) false true),
    (txt!"--biasForAction --explicitStrategy --simpleRecovery --sysInitRoboticsSemantics", .explicit (.robotics (.bias .gr1)) true false),
    (txt!"--biasForAction --explicitStrategy --simpleRecovery", .explicit (.bias .gr1) true false),
    (txt!"--biasForAction --explicitStrategy --sysInitRoboticsSemantics", .explicit (.robotics (.bias .gr1)) false false),
    (txt!"--biasForAction --explicitStrategy", .explicit (.bias .gr1) false false),
    (txt!"--biasForAction --extractExplicitPermissiveStrategy --sysInitRoboticsSemantics", .permissive (.robotics (.bias .gr1)) false),
    (txt!"--biasForAction --extractExplicitPermissiveStrategy", .permissive (.bias .gr1) false),
    (txt!"--biasForAction --interactiveStrategy", .interactive (.bias .gr1)),
    (txt!"--biasForAction --simpleRecovery --simpleSymbolicStrategy --sysInitRoboticsSemantics", .symbolic (.robotics (.bias .gr1)) true true),
    (txt!"--biasForAction --simpleRecovery --simpleSymbolicStrategy", .symbolic (.bias .gr1) true true),
    (txt!"--biasForAction --simpleRecovery --symbolicStrategy --sysInitRoboticsSemantics", .symbolic (.robotics (.bias .gr1)) true false),
    (txt!"--biasForAction --simpleRecovery --symbolicStrategy", .symbolic (.bias .gr1) true false),
    (txt!"--biasForAction --simpleSymbolicStrategy --sysInitRoboticsSemantics", .symbolic (.robotics (.bias .gr1)) false true),
    (txt!"--biasForAction --simpleSymbolicStrategy", .symbolic (.bias .gr1) false true),
    (txt!"--biasForAction --symbolicStrategy --sysInitRoboticsSemantics", .symbolic (.robotics (.bias .gr1)) false false),
    (txt!"--biasForAction --symbolicStrategy", .symbolic (.bias .gr1) false false),
    (txt!"--biasForAction --sysInitRoboticsSemantics", .robotics (.bias .gr1)),
    (txt!"--biasForAction", .bias .gr1),
    (txt!"--computeAbstractWinningTrace", .trace .gr1),
    (txt!"--computeCNFFormOfTheSpecification", .cnf .gr1),
    (txt!"--computeIncompleteInformationEstimator", .estimator .gr1),
    (txt!"--computeInterestingRunOfTheSystem", .run .gr1),
    (txt!"--computeWeakenedSafetyAssumptions", .weakened .gr1),
    (txt!"--cooperativeGR1Strategy --explicitStrategy --jsonOutput --simpleRecovery --sysInitRoboticsSemantics", .explicit (.robotics (.cooperative .gr1)) true true),
    (txt!"--cooperativeGR1Strategy --explicitStrategy --jsonOutput --simpleRecovery", .explicit (.cooperative .gr1) true true),
    (txt!"--cooperativeGR1Strategy --explicitStrategy --jsonOutput --sysInitRoboticsSemantics", .explicit (.robotics (.cooperative .gr1)) false true),
    (txt!"--cooperativeGR1Strategy --explicitStrategy --jsonOutput", .explicit (.cooperative .gr1) false true),
    (txt!"--cooperativeGR1Strategy --explicitStrategy --simpleRecovery --sysInitRoboticsSemantics", .explicit (.robotics (.cooperative .gr1)) true false),
    (txt!"--cooperativeGR1Strategy --explicitStrategy --simpleRecovery", .explicit (.cooperative .gr1) true false),
    (txt!"--cooperativeGR1Strategy --explicitStrategy --sysInitRoboticsSemantics", .explicit (.robotics (.cooperative .gr1)) false false),
    (txt!"--cooperativeGR1Strategy --explicitStrategy", .explicit (.cooperative .gr1) false false),
    (txt!"--cooperativeGR1Strategy --interactiveStrategy", .interactive (.cooperative .gr1)),
    (txt!"--cooperativeGR1Strategy --simpleRecovery --simpleSymbolicStrategy --sysInitRoboticsSemantics", .symbolic (.robotics (.cooperative .gr1)) true true),
    (txt!"--cooperativeGR1Strategy --simpleRecovery --simpleSymbolicStrategy", .symbolic (.cooperative .gr1) true true),
    (txt!"--cooperativeGR1Strategy --simpleRecovery --symbolicStrategy --sysInitRoboticsSemantics", .symbolic (.robotics (.cooperative .gr1)) true false),
    (txt!"--cooperativeGR1Strategy --simpleRecovery --symbolicStrategy", .symbolic (.cooperative .gr1) true false),
    (txt!"--cooperativeGR1Strategy --simpleSymbolicStrategy --sysInitRoboticsSemantics", .symbolic (.robotics (.cooperative .gr1)) false true),
    (txt!"--cooperativeGR1Strategy --simpleSymbolicStrategy", .symbolic (.cooperative .gr1) false true),
    (txt!"--cooperativeGR1Strategy --symbolicStrategy --sysInitRoboticsSemantics", .symbolic (.robotics (.cooperative .gr1)) false false),
    (txt!"--cooperativeGR1Strategy --symbolicStrategy", .symbolic (.cooperative .gr1) false false),
    (txt!"--cooperativeGR1Strategy --sysInitRoboticsSemantics", .robotics (.cooperative .gr1)),
    (txt!"--cooperativeGR1Strategy", .cooperative .gr1),
    (txt!"--counterStrategy --sysInitRoboticsSemantics", .explicitCounter (.counter .gr1 true)),
    (txt!"--counterStrategy", .explicitCounter (.counter .gr1 false)),
    (txt!"--explicitStrategy --fixedPointRecycling --jsonOutput --simpleRecovery --sysInitRoboticsSemantics", .explicit (.robotics (.recycling .gr1)) true true),
    (txt!"--explicitStrategy --fixedPointRecycling --jsonOutput --simpleRecovery", .explicit (.recycling .gr1) true true),
    (txt!"--explicitStrategy --fixedPointRecycling --jsonOutput --sysInitRoboticsSemantics", .explicit (.robotics (.recycling .gr1)) false true),
    (txt!"--explicitStrategy --fixedPointRecycling --jsonOutput", .explicit (.recycling .gr1) false true),
    (txt!"--explicitStrategy --fixedPointRecycling --simpleRecovery --sysInitRoboticsSemantics", .explicit (.robotics (.recycling .gr1)) true false),
    (txt!"--explicitStrategy --fixedPointRecycling --simpleRecovery", .explicit (.recycling .gr1) true false),
    (txt!"--explicitStrategy --fixedPointRecycling --sysInitRoboticsSemantics", .explicit (.robotics (.recycling .gr1)) false false),
    (txt!"--explicitStrategy --fixedPointRecycling", .explicit (.recycling .gr1) false false),
    (txt!"--explicitStrategy --jsonOutput --simpleRecovery --sysInitRoboticsSemantics --twoDimensionalCost", .explicit (.twoDim .gr1 true true) true true),
    (txt!"--explicitStrategy --jsonOutput --simpleRecovery --sysInitRoboticsSemantics", .explicit (.robotics .gr1) true true),
    (txt!"--explicitStrategy --jsonOutput --simpleRecovery --twoDimensionalCost", .explicit (.twoDim .gr1 false true) true true),
    (txt!"--explicitStrategy --jsonOutput --simpleRecovery", .explicit .gr1 true true),
    (txt!"--explicitStrategy --jsonOutput --sysInitRoboticsSemantics --twoDimensionalCost", .explicit (.twoDim .gr1 true false) false true),
    (txt!"--explicitStrategy --jsonOutput --sysInitRoboticsSemantics", .explicit (.robotics .gr1) false true),
    (txt!"--explicitStrategy --jsonOutput --twoDimensionalCost", .explicit (.twoDim .gr1 false false) false true),
    (txt!"--explicitStrategy --jsonOutput", .explicit .gr1 false true),
    (txt!"--explicitStrategy --simpleRecovery --sysInitRoboticsSemantics --twoDimensionalCost", .explicit (.twoDim .gr1 true true) true false),
    (txt!"--explicitStrategy --simpleRecovery --sysInitRoboticsSemantics", .explicit (.robotics .gr1) true false),
    (txt!"--explicitStrategy --simpleRecovery --twoDimensionalCost", .explicit (.twoDim .gr1 false true) true false),
    (txt!"--explicitStrategy --simpleRecovery", .explicit .gr1 true false),
    (txt!"--explicitStrategy --sysInitRoboticsSemantics --twoDimensionalCost", .explicit (.twoDim .gr1 true false) false false),
    (txt!"--explicitStrategy --sysInitRoboticsSemantics", .explicit (.robotics .gr1) false false),
    (txt!"--explicitStrategy --twoDimensionalCost", .explicit (.twoDim .gr1 false false) false false),
    (txt!"--explicitStrategy", .explicit .gr1 false false),
    (txt!"--extractExplicitPermissiveStrategy --fixedPointRecycling --sysInitRoboticsSemantics", .permissive (.robotics (.recycling .gr1)) false),
    (txt!"--extractExplicitPermissiveStrategy --fixedPointRecycling", .permissive (.recycling .gr1) false),
    (txt!"--extractExplicitPermissiveStrategy --sysInitRoboticsSemantics --twoDimensionalCost", .permissive (.twoDim .gr1 true false) false),
    (txt!"--extractExplicitPermissiveStrategy --sysInitRoboticsSemantics", .permissive (.robotics .gr1) false),
    (txt!"--extractExplicitPermissiveStrategy --twoDimensionalCost", .permissive (.twoDim .gr1 false false) false),
    (txt!"--extractExplicitPermissiveStrategy", .permissive .gr1 false),
    (txt!"--fixedPointRecycling --interactiveStrategy", .interactive (.recycling .gr1)),
    (txt!"--fixedPointRecycling --simpleRecovery --simpleSymbolicStrategy --sysInitRoboticsSemantics", .symbolic (.robotics (.recycling .gr1)) true true),
    (txt!"--fixedPointRecycling --simpleRecovery --simpleSymbolicStrategy", .symbolic (.recycling .gr1) true true),
    (txt!"--fixedPointRecycling --simpleRecovery --symbolicStrategy --sysInitRoboticsSemantics", .symbolic (.robotics (.recycling .gr1)) true false),
    (txt!"--fixedPointRecycling --simpleRecovery --symbolicStrategy", .symbolic (.recycling .gr1) true false),
    (txt!"--fixedPointRecycling --simpleSymbolicStrategy --sysInitRoboticsSemantics", .symbolic (.robotics (.recycling .gr1)) false true),
    (txt!"--fixedPointRecycling --simpleSymbolicStrategy", .symbolic (.recycling .gr1) false true),
    (txt!"--fixedPointRecycling --symbolicStrategy --sysInitRoboticsSemantics", .symbolic (.robotics (.recycling .gr1)) false false),
    (txt!"--fixedPointRecycling --symbolicStrategy", .symbolic (.recycling .gr1) false false),
    (txt!"--fixedPointRecycling --sysInitRoboticsSemantics", .robotics (.recycling .gr1)),
    (txt!"--fixedPointRecycling", .recycling .gr1),
    (txt!"--interactiveStrategy --nonDeterministicMotion", .interactive (.motion .gr1 false)),
    (txt!"--interactiveStrategy --twoDimensionalCost", .interactive (.twoDim .gr1 false false)),
    (txt!"--interactiveStrategy", .interactive .gr1),
    (txt!"--nonDeterministicMotion --sysInitRoboticsSemantics", .motion .gr1 true),
    (txt!"--nonDeterministicMotion", .motion .gr1 false),
    (txt!"--simpleRecovery --simpleSymbolicStrategy --sysInitRoboticsSemantics --twoDimensionalCost", .symbolic (.twoDim .gr1 true true) true true),
    (txt!"--simpleRecovery --simpleSymbolicStrategy --sysInitRoboticsSemantics", .symbolic (.robotics .gr1) true true),
    (txt!"--simpleRecovery --simpleSymbolicStrategy --twoDimensionalCost", .symbolic (.twoDim .gr1 false true) true true),
    (txt!"--simpleRecovery --simpleSymbolicStrategy", .symbolic .gr1 true true),
    (txt!"--simpleRecovery --symbolicStrategy --sysInitRoboticsSemantics --twoDimensionalCost", .symbolic (.twoDim .gr1 true true) true false),
    (txt!"--simpleRecovery --symbolicStrategy --sysInitRoboticsSemantics", .symbolic (.robotics .gr1) true false),
    (txt!"--simpleRecovery --symbolicStrategy --twoDimensionalCost", .symbolic (.twoDim .gr1 false true) true false),
    (txt!"--simpleRecovery --symbolicStrategy", .symbolic .gr1 true false),
    (txt!"--simpleSymbolicStrategy --sysInitRoboticsSemantics --twoDimensionalCost", .symbolic (.twoDim .gr1 true false) false true),
    (txt!"--simpleSymbolicStrategy --sysInitRoboticsSemantics", .symbolic (.robotics .gr1) false true),
    (txt!"--simpleSymbolicStrategy --twoDimensionalCost", .symbolic (.twoDim .gr1 false false) false true),
    (txt!"--simpleSymbolicStrategy", .symbolic .gr1 false true),
    (txt!"--symbolicStrategy --sysInitRoboticsSemantics --twoDimensionalCost", .symbolic (.twoDim .gr1 true false) false false),
    (txt!"--symbolicStrategy --sysInitRoboticsSemantics", .symbolic (.robotics .gr1) false false),
    (txt!"--symbolicStrategy --twoDimensionalCost", .symbolic (.twoDim .gr1 false false) false false),
    (txt!"--symbolicStrategy", .symbolic .gr1 false false),
    (txt!"--sysInitRoboticsSemantics --twoDimensionalCost", .twoDim .gr1 true false),
    (txt!"--sysInitRoboticsSemantics", .robotics .gr1),
    (txt!"--twoDimensionalCost", .twoDim .gr1 false false)]

/-! ### The options -/

/-- The order of `std::set<std::string>`: lexicographic by character codes.  (All strings that are put into the set consist of ASCII characters.) -/
def strLt : List Char → List Char → Bool
  | [], [] => false
  | [], _ :: _ => true
  | _ :: _, [] => false
  | a :: as, b :: bs => if a.val.toNat < b.val.toNat then true else if a.val.toNat = b.val.toNat then strLt as bs else false

/-- `std::set::insert`; the list holds the elements in the order in which an iterator visits them. -/
def setInsert (a : List Char) : List (List Char) → List (List Char)
  | [] => [a]
  | b :: l => if strLt a b then a :: b :: l else if a = b then b :: l else b :: setInsert a l

/-- `main.cpp:297-316`: the loop over the arguments.  Either the first unknown option, or the set of options and the list of file names. -/
def parseArgs : List (List Char) → List (List Char) → List (List Char) → (List Char) ⊕ (List (List Char) × List (List Char))
  | [], parameters, filenames => .inr (parameters, filenames)
  | arg :: args, parameters, filenames =>
    if arg.head? = some '-' then
      if commandLineArguments.any (fun o => o = arg) then parseArgs args (setInsert arg parameters) filenames
      else .inl arg
    else parseArgs args parameters (filenames ++ [arg])

/-- `main.cpp:322-332`: the options, separated by blanks. -/
def joinParameters : List (List Char) → List Char
  | [] => []
  | [a] => a
  | a :: l => a ++ ' ' :: joinParameters l

/-- `main.cpp:333-334`: the first entry of the table with the given options. -/
def findCombination (totalParameters : List Char) : List (List Char × Plugin) → Option Plugin
  | [] => none
  | (params, factory) :: l => if params = totalParameters then some factory else findCombination totalParameters l

/-! ### The file names -/

/-- The file names that have not been used yet, and what the other ones are used for.  An empty name of the output file means the standard output. -/
structure FileState where
  filenames : List (List Char)
  /-- the specification -/
  spec : List Char := []
  /-- the second input file: costs or a robot -/
  second : Option (List Char) := none
  output : List Char := []
  deriving DecidableEq, Repr

/-- Errors about file names. -/
inductive FileErr where
  /-- "Cannot load SLUGS input file - there has been no input file name given!" -/
  | noInput
  /-- "At least two file names are needed when using the supplied options!" -/
  | needTwo
  /-- "Not enought file names given. Cannot read cost relation map." -/
  | noCosts
  /-- "Need a file name for extracting a symbolic strategy." -/
  | noOutput
  deriving DecidableEq, Repr

/-- The constructors.  Only the one of `XExtractExplicitCounterStrategy` uses file names, `extensionExtractExplicitCounterstrategy.hpp:44-51`; `front()` of an
empty list is undefined. -/
def construct : Plugin → FileState → Res FileErr FileState
  | .gr1, s => .ok s
  | .explicitCounter T, s =>
    match construct T s with
    | .ok s =>
      if s.filenames.length = 1 then .ok { s with output := [] }
      else
        match s.filenames with
        | [] => .ub
        | f :: fs => .ok { s with output := f, filenames := fs }
    | r => r
  | .robotics T, s => construct T s
  | .bias T, s => construct T s
  | .recycling T, s => construct T s
  | .cooperative T, s => construct T s
  | .fastSlow T, s => construct T s
  | .twoDim T _ _, s => construct T s
  | .motion T _, s => construct T s
  | .counter T _, s => construct T s
  | .assumptions T, s => construct T s
  | .initialPositions T _, s => construct T s
  | .interleave T, s => construct T s
  | .interaction T, s => construct T s
  | .trace T, s => construct T s
  | .cnf T, s => construct T s
  | .estimator T, s => construct T s
  | .run T, s => construct T s
  | .weakened T, s => construct T s
  | .explicit T _ _, s => construct T s
  | .symbolic T _ _, s => construct T s
  | .permissive T _, s => construct T s
  | .interactive T, s => construct T s

/-- Taking the name of the specification, `synthesisContextBasics.cpp:119-124`. -/
def takeSpec (s : FileState) : Res FileErr FileState :=
  match s.filenames with
  | [] => .err .noInput
  | f :: fs => .ok { s with spec := f, filenames := fs }

/-- `init`, as far as file names are concerned.  Simplification: the files themselves are read in the same functions; this model describes the case in which that succeeds.
Classes without an own `init` inherit the one of the base class; `XIROSFS`, `XAnalyzeAssumptions`, `XAnalyzeInitialPositions` and
`XIncompleteInformationEstimatorSynthesis` do not call the one of the base class. -/
def initFiles : Plugin → FileState → Res FileErr FileState
  /- `synthesisContextBasics.cpp:118-124` -/
  | .gr1, s => takeSpec s
  /- `extensionIROSfastslow.hpp:71-77` -/
  | .fastSlow _, s => takeSpec s
  /- `extensionAnalyzeAssumptions.hpp:47-53` -/
  | .assumptions _, s => takeSpec s
  /- `extensionAnalyzeInitialPositions.hpp:252-258` -/
  | .initialPositions _ _, s => takeSpec s
  /- `extensionIncompleteInformationEstimatorSynthesis.hpp:45-51` -/
  | .estimator _, s => takeSpec s
  /- `extensionTwoDimensionalCost.hpp:145-156` -/
  | .twoDim T _ _, s =>
    match initFiles T s with
    | .ok s =>
      match s.filenames with
      | [] => .err .noCosts
      | f :: fs => .ok { s with second := some f, filenames := fs }
    | r => r
  /- `extensionNondeterministicMotion.hpp:154-167` -/
  | .motion _ _, s =>
    match s.filenames with
    | [] => .err .noInput
    | [_] => .err .needTwo
    | f :: f' :: fs => .ok { s with spec := f, second := some f', filenames := fs }
  /- `extensionExtractExplicitStrategy.hpp:42-50` -/
  | .explicit T _ _, s =>
    match initFiles T s with
    | .ok s =>
      match s.filenames with
      | [] => .ok { s with output := [] }
      | f :: fs => .ok { s with output := f, filenames := fs }
    | r => r
  /- `extensionPermissiveExplicitStrategy.hpp:43-51` -/
  | .permissive T _, s =>
    match initFiles T s with
    | .ok s =>
      match s.filenames with
      | [] => .ok { s with output := [] }
      | f :: fs => .ok { s with output := f, filenames := fs }
    | r => r
  /- `extensionExtractSymbolicStrategy.hpp:43-52` -/
  | .symbolic T _ _, s =>
    match initFiles T s with
    | .ok s =>
      match s.filenames with
      | [] => .err .noOutput
      | f :: fs => .ok { s with output := f, filenames := fs }
    | r => r
  | .robotics T, s => initFiles T s
  | .bias T, s => initFiles T s
  | .recycling T, s => initFiles T s
  | .cooperative T, s => initFiles T s
  | .counter T _, s => initFiles T s
  | .interleave T, s => initFiles T s
  | .interaction T, s => initFiles T s
  | .trace T, s => initFiles T s
  | .cnf T, s => initFiles T s
  | .run T, s => initFiles T s
  | .weakened T, s => initFiles T s
  | .explicitCounter T, s => initFiles T s
  | .interactive T, s => initFiles T s

/-- What `main` does with its arguments. -/
inductive MainOutcome where
  /-- "Parameter ... is unknown", `main.cpp:308-312` -/
  | unknownOption (a : List Char)
  /-- "the chosen option combination is not permissible", `main.cpp:354` -/
  | notPermissible
  | fileError (e : FileErr)
  /-- "You provided too many file names", `main.cpp:344` -/
  | tooManyNames
  | ub
  /-- `execute` is called for the given class. -/
  | run (p : Plugin) (spec : List Char) (second : Option (List Char)) (output : List Char)
  deriving DecidableEq, Repr

/-- `main`, `main.cpp:291-355`.  The arguments do not include the name of the program. -/
def runMain (args : List (List Char)) : MainOutcome :=
  match parseArgs args [] [] with
  | .inl a => .unknownOption a
  | .inr (parameters, filenames) =>
    match findCombination (joinParameters parameters) optionCombinations with
    | none => .notPermissible
    | some p =>
      match construct p { filenames := filenames } with
      | .ok s =>
        match initFiles p s with
        | .ok s => if s.filenames.length > 0 then .tooManyNames else .run p s.spec s.second s.output
        | .err e => .fileError e
        | _ => .ub
      | .err e => .fileError e
      | _ => .ub

end Slugs.Model
