{"id": "C01", "title": "Every position reported as winning is won by the system", "statement": "From every position in the winning set computed by slugs, the system has a strategy (output as a function of the history and the next input) such that, as long as the environment obeys the safety assumptions, every system move obeys the safety guarantees, and on every infinite play on which every liveness assumption holds infinitely often every liveness guarantee holds infinitely often.", "quantifier": "all specifications (any finite input/output alphabets, any safety/liveness constraints, any number of them), all winning positions, all environment behaviours of unbounded length", "why_tests_cant": "The claim is about infinite plays of an arbitrary adversary; no finite set of executions settles it.", "anchors": ["src/synthesisAlgorithm.cpp: GR1Context::computeWinningPositions", "src/gr1context.hpp: BFFixedPoint"]}
{"id": "C02", "title": "Every position not reported as winning is lost by the system", "statement": "From every position outside the computed winning set the environment has a strategy that always obeys the safety assumptions and wins against every system: either the system runs into a violation of the safety guarantees, or all liveness assumptions hold infinitely often while some liveness guarantee holds only finitely often. Hence no system strategy is winning from there.", "quantifier": "all specifications, all non-winning positions, all system behaviours of unbounded length", "why_tests_cant": "Non-existence of a strategy ranges over all infinitely many strategies.", "anchors": ["src/synthesisAlgorithm.cpp: GR1Context::computeWinningPositions"]}
{"id": "C03", "title": "The synthesis loop terminates on every specification", "statement": "The nested fixed-point computation terminates for every specification; each individual fixed-point loop needs at most (number of positions + 2) rounds.", "quantifier": "all specifications", "why_tests_cant": "Termination on every input cannot be tested.", "anchors": ["src/synthesisAlgorithm.cpp: GR1Context::computeWinningPositions", "src/gr1context.hpp: BFFixedPoint"]}
{"id": "C04", "title": "Realizability verdict is exact", "statement": "slugs reports 'realizable' if and only if for every initial input allowed by the initialisation assumptions there is an initial output allowed by the initialisation guarantees from which the system has a winning strategy.", "quantifier": "all specifications", "why_tests_cant": "Ranges over all specifications and all strategies.", "anchors": ["src/synthesisAlgorithm.cpp: GR1Context::checkRealizability", "src/synthesisAlgorithm.cpp: GR1Context::computeWinningPositions"]}
{"id": "C05", "title": "The 'could not establish realizability' internal error never happens", "statement": "For every input file that slugs accepts, the verdict computation yields a constant, so the internal error is never raised.", "quantifier": "all accepted specification files", "why_tests_cant": "Absence of an error over all inputs.", "anchors": ["src/synthesisAlgorithm.cpp: GR1Context::checkRealizability", "src/synthesisContextBasics.cpp: GR1Context::init"]}
{"id": "C06", "title": "Robotics semantics verdict is exact", "statement": "With --sysInitRoboticsSemantics slugs reports 'realizable' if and only if the system wins from every position that satisfies both initialisation constraints.", "quantifier": "all specifications", "why_tests_cant": "Ranges over all specifications and strategies.", "anchors": ["src/extensionRoboticsSemantics.hpp: XRoboticsSemantics::checkRealizability"]}
{"id": "C07", "title": "The counterstrategy fixed point is the exact complement", "statement": "With --counterStrategy (as instantiated by the explicit counterstrategy options) the set of positions computed as winning for the environment is exactly the complement of the set the standard algorithm computes as winning for the system, and the verdict agrees with the standard verdict (in both initialisation semantics).", "quantifier": "all specifications", "why_tests_cant": "Two different programs must agree on all inputs.", "anchors": ["src/extensionCounterstrategy.hpp: XCounterStrategy::computeWinningPositions, checkRealizability"]}
{"id": "C08", "title": "Fixed-point recycling does not change the result", "statement": "With --fixedPointRecycling the computed winning set and the preferred-transition data used for strategy extraction are identical to those of the standard algorithm, and the loops still terminate.", "quantifier": "all specifications", "why_tests_cant": "Equivalence of two programs on all inputs; a wrong start value for a fixed point can even cause non-termination.", "anchors": ["src/extensionFixedPointRecycling.hpp: XFixedPointRecycling::computeWinningPositions"]}
{"id": "C09", "title": "Bias for action does not change the verdict", "statement": "With --biasForAction the computed winning set is identical to that of the standard algorithm, the computation terminates, and the strategy built from its preferred transitions is still winning.", "quantifier": "all specifications", "why_tests_cant": "Equivalence of two programs on all inputs.", "anchors": ["src/extensionBiasForAction.hpp: XBiasForAction::computeWinningPositions"]}
{"id": "C10", "title": "The explicit-state strategy is complete and safe", "statement": "In the explicit strategy printed for a realizable specification, every state is labelled with a complete assignment; for every state and every next input allowed by the safety assumptions there is exactly one listed successor with that input, it is itself a printed state, and the step obeys the safety guarantees. For every allowed initial input some initial state is listed.", "quantifier": "all realizable specifications, all printed states, all allowed inputs", "why_tests_cant": "Ranges over all specifications.", "anchors": ["src/extensionExtractExplicitStrategy.hpp: XExtractExplicitStrategy::computeAndPrintExplicitStateStrategy"]}
{"id": "C11", "title": "The explicit-state strategy satisfies the liveness guarantees", "statement": "On every infinite run of the printed explicit strategy along which every liveness assumption holds infinitely often, every liveness guarantee holds infinitely often.", "quantifier": "all realizable specifications, all infinite runs", "why_tests_cant": "Infinite runs.", "anchors": ["src/extensionExtractExplicitStrategy.hpp: XExtractExplicitStrategy::computeAndPrintExplicitStateStrategy"]}
{"id": "C12", "title": "Explicit strategy extraction terminates", "statement": "The work list of the explicit strategy extraction is finite: extraction terminates with at most (positions x goals) states, no state is printed twice, and every successor number refers to a printed state.", "quantifier": "all realizable specifications", "why_tests_cant": "Termination for all inputs.", "anchors": ["src/extensionExtractExplicitStrategy.hpp: XExtractExplicitStrategy::computeAndPrintExplicitStateStrategy"]}
{"id": "C13", "title": "determinize picks exactly one assignment", "statement": "determinize(f,vars) implies f, is satisfiable whenever f is, and fixes a single value for each listed variable; if f is over the listed variables only the result has exactly one satisfying assignment of them. The same holds for determinizeRandomized for every outcome of the random number generator.", "quantifier": "all Boolean functions, all variable lists, all random sequences", "why_tests_cant": "All Boolean functions and all random sequences.", "anchors": ["src/tools.cpp: GR1Context::determinize, determinizeRandomized"]}
{"id": "C14", "title": "The permissive strategy only allows winning behaviour", "statement": "Every infinite run allowed by the permissive explicit strategy satisfies the specification, and the strategy never blocks an allowed input.", "quantifier": "all realizable specifications, all runs", "why_tests_cant": "Infinite runs over all specifications.", "anchors": ["src/extensionPermissiveExplicitStrategy.hpp: XExtractPermissiveExplicitStrategy::computeAndPrintExplicitStateStrategy"]}
{"id": "C15", "title": "The symbolic strategy is a winning strategy", "statement": "The Boolean function written by --symbolicStrategy, read as a nondeterministic transition relation with a goal counter, never blocks an allowed input from a winning position with a valid counter value and every infinite run through it satisfies the specification.", "quantifier": "all realizable specifications, all runs", "why_tests_cant": "Infinite runs over all specifications.", "anchors": ["src/extensionExtractSymbolicStrategy.hpp: XExtractSymbolicStrategy::computeAndPrintSymbolicStrategy"]}
{"id": "C16", "title": "The explicit counterstrategy never leaves a state without a move", "statement": "In the printed explicit counterstrategy every state with a successor list has one chosen input, allowed by the safety assumptions, such that either this input leaves the system without any allowed move and the only listed successor is a state marked as having no successors, or the successor list consists of exactly the system moves that the safety guarantees allow under this input, and none of these is marked as having no successors. State numbers are unique, every listed number is printed, and the extraction terminates.", "quantifier": "all unrealizable specifications", "why_tests_cant": "Ranges over all specifications.", "anchors": ["src/extensionExtractExplicitCounterstrategy.hpp: XExtractExplicitCounterStrategy::computeAndPrintExplicitStateStrategy"]}
{"id": "C17", "title": "Reading back a formula yields its meaning", "statement": "For every Boolean formula over declared variables (including memory buffers), writing it in the Polish-notation input syntax and reading it with slugs yields exactly the Boolean function the formula denotes.", "quantifier": "all formulas of any size, all variable tables, all valuations", "why_tests_cant": "Unbounded syntax trees.", "anchors": ["src/synthesisContextBasics.cpp: GR1Context::parseBooleanFormulaRecurse, parseBooleanFormula", "doc/input_formats.md"]}
{"id": "C18", "title": "Reading a formula does not depend on operand evaluation order", "statement": "C++ leaves the evaluation order of the two operands of |, & and ^ unspecified. For every line, every choice of evaluation order at every operator gives the same Boolean function or the same error.", "quantifier": "all lines, all (independent) choices of evaluation order at every operator occurrence", "why_tests_cant": "A compiler only exercises one order; all schedules must be considered.", "anchors": ["src/synthesisContextBasics.cpp: GR1Context::parseBooleanFormulaRecurse"]}
{"id": "C19", "title": "Constraints only mention the variables allowed for their section", "statement": "If a specification file is accepted, initialisation assumptions depend only on current inputs, initialisation guarantees only on current variables, and safety assumptions not on next outputs.", "quantifier": "all accepted files", "why_tests_cant": "All input texts.", "anchors": ["src/synthesisContextBasics.cpp: GR1Context::parseBooleanFormulaRecurse, GR1Context::init"]}
{"id": "C20", "title": "Reading a formula line never has undefined behaviour", "statement": "For every line of text, reading it as a formula either yields a Boolean function or a reported error; it never reads uninitialised or out-of-range memory.", "quantifier": "all lines of text", "why_tests_cant": "All input texts.", "anchors": ["src/synthesisContextBasics.cpp: GR1Context::parseBooleanFormulaRecurse"]}
{"id": "C21", "title": "Each variable is paired with its primed copy", "statement": "For every accepted file and every order of declarations, exchanging current and next variables exchanges exactly x and x' for every declared x, and the variable groups (current/next input/output) partition the variables.", "quantifier": "all accepted files, all declaration orders", "why_tests_cant": "All input texts.", "anchors": ["src/variableManager.cpp: SlugsVariableManager::computeVariableInformation", "src/synthesisContextBasics.cpp: GR1Context::init", "src/gr1context.hpp: varVectorPre, varVectorPost"]}
{"id": "C22", "title": "Ambiguous variable names are rejected", "statement": "A file in which two declared names (including the automatically created primed names) coincide is never accepted; in an accepted file every name denotes exactly one variable.", "quantifier": "all files", "why_tests_cant": "All input texts.", "anchors": ["src/synthesisContextBasics.cpp: GR1Context::init"]}
{"id": "C23", "title": "Order of constraints does not matter", "statement": "Permuting safety or initialisation lines within a section, adding comments or blank lines, and splitting a section into several with the same header do not change acceptance or the verdict.", "quantifier": "all files, all permutations", "why_tests_cant": "All input texts and permutations.", "anchors": ["src/synthesisContextBasics.cpp: GR1Context::init"]}
{"id": "C24", "title": "From text to verdict", "statement": "For every specification file that is accepted, the verdict printed equals realizability of the GR(1) game that the text denotes according to the input format documentation.", "quantifier": "all specification files", "why_tests_cant": "Ranges over all input texts and all strategies.", "anchors": ["src/synthesisContextBasics.cpp", "src/synthesisAlgorithm.cpp", "src/variableManager.cpp", "doc/input_formats.md"]}
{"id": "C25", "title": "Command line options are a set", "statement": "The plugin combination that is run depends only on the set of options given, not on their order, repetition or position relative to file names; an unknown option or an unsupported combination is always rejected, never silently ignored.", "quantifier": "all argument lists", "why_tests_cant": "All argument lists.", "anchors": ["src/main.cpp: main, optionCombinations, commandLineArguments"]}
{"id": "C26", "title": "Model counting is exact", "statement": "The number of satisfying assignments computed for a Boolean function over a variable cube that contains its support equals the number of assignments of the cube's variables that satisfy it.", "quantifier": "all Boolean functions and cubes", "why_tests_cant": "All Boolean functions.", "anchors": ["src/BFAbstractionLibrary/BFCudd.cpp: BFBdd::getNofSatisfyingAssignments"]}
{"id": "C27", "title": "The CNF export is equivalent to the specification", "statement": "--computeCNFFormOfTheSpecification terminates on every accepted file without an error; it lists exactly the declared variables with unambiguous numbers; the clauses printed for the safety guarantees, the safety assumptions and the initial constraints hold in a transition if and only if these constraints do, and no literal of a clause can be left out; for every liveness constraint there is one line with cubes, and in every infinite run one of the cubes holds infinitely often if and only if the constraint does.", "quantifier": "all accepted specification files, all transitions, all infinite sequences of positions, all numbers of iterations", "why_tests_cant": "All Boolean functions and all infinite sequences.", "anchors": ["src/extensionComputeCNFFormOfTheSpecification.hpp: XComputeCNFFormOfTheSpecification::execute"]}
{"id": "C28", "title": "Removing an assumption never helps the system", "statement": "Strengthening the assumptions or weakening the guarantees never turns a realizable specification unrealizable: the computed winning set and the verdict are monotone.", "quantifier": "all pairs of specifications ordered this way", "why_tests_cant": "All pairs of specifications.", "anchors": ["src/synthesisAlgorithm.cpp: GR1Context::computeWinningPositions", "src/extensionAnalyzeAssumptions.hpp", "src/extensionWeakenSafetyAssumptions.hpp"]}
{"id": "C29", "title": "Assumption analysis says 'crucially needed' only when it is", "statement": "--analyzeAssumptions reports a liveness assumption as crucially needed only if the specification with just that assumption removed is unrealizable.", "quantifier": "all realizable specifications and all their liveness assumptions", "why_tests_cant": "All specifications.", "anchors": ["src/extensionAnalyzeAssumptions.hpp: XAnalyzeAssumptions::execute"]}
{"id": "C30", "title": "Interleaving analysis: the outputs listed can be set before the input is read", "statement": "When --analyzeInterleaving lists outputs, the specification stays realizable if those next outputs have to be chosen before the next inputs are read, and no further output can be added to the list; if no output can be set before the input is read it says so.", "quantifier": "all accepted specification files, all strategies, all numbers of iterations", "why_tests_cant": "All specifications and all strategies.", "anchors": ["src/extensionInterleave.hpp: XInterleave::computeWinningPositions, execute, doesVariableInheritType"]}
{"id": "C31", "title": "Abstract traces for the environment: reported whenever the environment wins in finite time", "statement": "--computeAbstractWinningTrace prints a table for the environment if and only if the environment can, from the start, force a violation of the safety guarantees in finitely many rounds, with the least possible number of rounds; otherwise it prints nothing.", "quantifier": "all specification files without grouped variables ('@' in a name), all numbers of iterations", "why_tests_cant": "Winning in finite time quantifies over all strategies and all plays; every specification has to be considered.", "anchors": ["src/extensionAbstractWinningTraceGenerator.hpp: computeAbstractStrategyTrace, execute"]}
{"id": "C32", "title": "Reachable-position restriction is exact", "statement": "The position set used by --restrictToReachableStates equals the set of positions that occur on some finite path from an initial position along which both players obey the safety constraints; the loop terminates.", "quantifier": "all specifications", "why_tests_cant": "Paths of unbounded length.", "anchors": ["src/extensionAnalyzeInitialPositions.hpp: XAnalyzeInitialPositions::execute"]}
{"id": "C33", "title": "Cooperative strategies: exact verdict, and the environment is never prevented from fulfilling its assumptions", "statement": "With --cooperativeGR1Strategy the computation terminates, and it reports realizability if and only if, for every allowed initial input, the system has a cooperative strategy: a winning strategy such that every history that can arise can be continued to an infinite play on which all liveness assumptions hold infinitely often. The explicit-state strategy that is printed implements the specification (complete, deterministic, safe, live), never moves to a position in which the environment has no allowed input, and from each of its states there is a run on which the environment obeys all its safety and liveness assumptions.", "quantifier": "all specification files, both initialisation semantics, with and without recovery, all printed states and all infinite runs", "why_tests_cant": "All specifications, strategies, histories and infinite plays.", "anchors": ["src/extensionCooperativeGR1Strategy.hpp: XCooperativeGR1Strategy::computeWinningPositions", "src/extensionExtractExplicitStrategy.hpp: XExtractExplicitStrategy::computeAndPrintExplicitStateStrategy", "src/main.cpp: optionCombinations"]}
{"id": "C34", "title": "The assumed BDD contract is satisfiable and canonical", "statement": "The contract under which the BDD library is modelled (canonical representation of Boolean functions with finite support; exact Boolean operations, quantification and variable swapping) is met by an ordered reduced decision diagram implementation.", "quantifier": "all Boolean functions over any number of variables", "why_tests_cant": "All Boolean functions.", "anchors": ["src/BFAbstractionLibrary/BFCudd.h", "src/BFAbstractionLibrary/BFCuddInlines.h", "src/BFAbstractionLibrary/BFCuddManager.cpp"]}
{"id": "C35", "title": "The explicit counterstrategy defeats every system", "statement": "The printed explicit counterstrategy contains states for the initial positions needed to refute realizability, all its states are winning for the environment, and every infinite run of it satisfies all liveness assumptions infinitely often and violates some liveness guarantee.", "quantifier": "all unrealizable specifications and all infinite runs of the printed counterstrategy", "why_tests_cant": "Infinite runs, all specifications.", "anchors": ["src/extensionExtractExplicitCounterstrategy.hpp: XExtractExplicitCounterStrategy::computeAndPrintExplicitStateStrategy", "src/extensionCounterstrategy.hpp: XCounterStrategy::computeWinningPositions"]}
{"id": "C36", "title": "The numbers of --analyzeInitialPositions are exact", "statement": "With --analyzeInitialPositions, and also with --restrictToReachableStates, each printed number is the number of positions (or initial inputs) that its text describes, where only positions that satisfy the constraints marked as variable limits (and that are reachable) are counted; marked lines in liveness sections are rejected with an error message; for all other files accepted by the other modes the numbers are printed.", "quantifier": "all specification files, with and without the restriction", "why_tests_cant": "The numbers range over exponentially many positions, and winning positions are defined over infinite plays.", "anchors": ["src/extensionAnalyzeInitialPositions.hpp: XAnalyzeInitialPositions::execute, init", "src/BFCudd.cpp: BFBdd::getNofSatisfyingAssignments"]}
{"id": "C37", "title": "File names have fixed roles", "statement": "In every mode the first file name is the specification, the second is the second input file in the modes that read one (costs, robot), and the next one, in the modes that can write a file, is the file that is written; missing and superfluous file names are rejected with an error message, so a specification file is never overwritten by giving file names in the documented order.", "quantifier": "all argument lists with a permitted set of options", "why_tests_cant": "All argument lists.", "anchors": ["src/main.cpp: main", "src/extensionExtractExplicitCounterstrategy.hpp: constructor", "src/extensionExtractExplicitStrategy.hpp: init", "src/extensionTwoDimensionalCost.hpp: init"]}
{"id": "C38", "title": "Assumption analysis: lines about safety assumptions are right", "statement": "--analyzeAssumptions accepts exactly the files that the other modes accept, terminates, and analyses the assumptions if and only if the specification is realizable. It then prints one line for each safety assumption of the file, in the order of the file and with the name given by the last '##' comment before it (or a numbered default name), and what the line says is right: 'crucially needed' iff the specification without just that assumption is unrealizable; 'more winning positions' (and whether some have an allowed initial input) iff it is realizable but from fewer positions; 'redundant' iff the assumption follows from the other safety assumptions; 'easier to reach' lists exactly the goals that the system can reach within fewer stages thanks to the assumption; 'superfluous' iff there is none.", "quantifier": "all specification files, all safety assumptions, all numbers of iterations", "why_tests_cant": "Every finding is about sets of winning positions and distances in two different games; every specification has to be considered.", "anchors": ["src/extensionAnalyzeAssumptions.hpp: XAnalyzeAssumptions::init, execute, computeReactiveDistances"]}
{"id": "C39", "title": "Abstract traces: every printed table is right, and the system's part is exact", "statement": "--computeAbstractWinningTrace terminates on every accepted file. For the system it prints nothing iff the system cannot force a violation of the safety assumptions in finitely many rounds, the message that there is no strategy iff there is no initial input, and otherwise a table with the least possible number of rounds. In every table (for the system or the environment), column 0 shows an initial position from which the player wins within that number of rounds; from all positions that a column shows the player can force the next position to be shown by the next column or win at once; entries 0, 1, *, X mean false, true, both values possible, no such position; no entry * could be replaced by 0 or 1; and the last column for the environment shows an input that wins at once from all positions of the column before, or X if there is none.", "quantifier": "all specification files without grouped variables ('@' in a name), all numbers of iterations, all columns and rows", "why_tests_cant": "Winning in finite time quantifies over all strategies and all plays; every specification has to be considered.", "anchors": ["src/extensionAbstractWinningTraceGenerator.hpp: computeAbstractStrategyTrace, execute"]}
{"id": "C40", "title": "Interleaving analysis terminates and its starting verdict is exact", "statement": "--analyzeInterleaving terminates on every accepted file; it reports that the specification is unrealizable if and only if it is; it never ends with an internal error.", "quantifier": "all accepted specification files, all numbers of iterations", "why_tests_cant": "Realizability quantifies over all strategies and plays, and termination over all files.", "anchors": ["src/extensionInterleave.hpp: XInterleave::computeWinningPositions, checkRealizability, execute"]}
{"id": "C41", "title": "The table of the safety/liveness analysis", "statement": "--analyzeSafetyLivenessInteraction terminates on every accepted file; the table has sixteen rows, one for each choice among safety assumptions, liveness assumptions, safety guarantees and liveness guarantees, and each row says exactly whether the specification with only these parts is realizable, in the standard and in the robotics semantics.", "quantifier": "all accepted specification files, all choices of parts, all strategies and infinite plays", "why_tests_cant": "Realizability quantifies over all strategies and all infinite plays.", "anchors": ["src/extensionAnalyzeSafetyLivenessInteraction.hpp: XAnalyzeSafetyLivenessInteraction::execute"]}
{"id": "C42", "title": "Realizability for the non-strict implication", "statement": "--analyzeSafetyLivenessInteraction prints that the specification becomes realizable if the system only has to satisfy the guarantees when all assumptions hold forever (non-strict implication) if and only if it is unrealizable but realizable for the non-strict implication, in the standard and in the robotics semantics.", "quantifier": "all accepted specification files, all strategies and infinite plays", "why_tests_cant": "Quantifies over all strategies and all infinite plays of two different games.", "anchors": ["src/extensionAnalyzeSafetyLivenessInteraction.hpp: XAnalyzeSafetyLivenessInteraction::execute"]}
{"id": "C43", "title": "Winning in finite time", "statement": "--analyzeSafetyLivenessInteraction prints, if the safety constraints alone are realizable, the least number of rounds in which the system can force a violation of the safety assumptions from the initial positions, or that it cannot; otherwise the least number of rounds in which the environment can force a violation of the safety guarantees.", "quantifier": "all accepted specification files, all numbers of rounds, all strategies", "why_tests_cant": "Quantifies over all strategies and has no bound on the number of rounds.", "anchors": ["src/extensionAnalyzeSafetyLivenessInteraction.hpp: XAnalyzeSafetyLivenessInteraction::execute"]}
{"id": "C44", "title": "Weakened assumptions keep realizability", "statement": "--computeWeakenedSafetyAssumptions terminates on every accepted file and prints clauses; they only use names that are allowed in safety assumptions, and if the specification is realizable, it is still realizable with the printed clauses instead of its safety assumptions.", "quantifier": "all accepted specification files, all strategies and infinite plays", "why_tests_cant": "Realizability quantifies over all strategies and all infinite plays, and the clauses are found by a search over all assignments.", "anchors": ["src/extensionWeakenSafetyAssumptions.hpp: XComputeWeakenedSafetyAssumptions::execute", "src/main.cpp"]}
{"id": "C45", "title": "Weakened assumptions are weaker", "statement": "The clauses printed by --computeWeakenedSafetyAssumptions follow from the safety assumptions of the specification: every environment move that the specification allows satisfies all of them.", "quantifier": "all accepted specification files, all positions and environment moves", "why_tests_cant": "Must hold for every assignment of the variables of every file.", "anchors": ["src/extensionWeakenSafetyAssumptions.hpp: XComputeWeakenedSafetyAssumptions::execute", "src/main.cpp"]}
{"id": "C46", "title": "No printed clause is superfluous", "statement": "No clause printed by --computeWeakenedSafetyAssumptions can be left out: without it, the specification becomes unrealizable. In particular, clauses are printed only if the specification is not realizable without safety assumptions.", "quantifier": "all accepted specification files, all printed clauses, all strategies and infinite plays", "why_tests_cant": "Unrealizability quantifies over all strategies.", "anchors": ["src/extensionWeakenSafetyAssumptions.hpp: XComputeWeakenedSafetyAssumptions::execute", "src/main.cpp"]}
{"id": "C47", "title": "Interactive play is safe", "statement": "Every accepted file leads to an interactive session (--interactiveStrategy), whatever is typed, and the verdict is right. In every session with a realizable specification, a play that starts at a winning position and is continued with XMAKETRANS or XMAKETRANSRANDOM only takes steps that satisfy the safety assumptions and guarantees and only visits winning positions; ERROR is answered exactly if no allowed next input agrees with the characters typed; STARTPOS and XGETINIT print a winning initial position if there is one.", "quantifier": "all accepted files, all inputs typed (of any length), all random numbers, all moments of the session", "why_tests_cant": "A session can be continued with arbitrary requests for arbitrarily long; winning quantifies over all strategies.", "anchors": ["src/extensionInteractiveStrategy.hpp: XInteractiveStrategy::execute", "src/main.cpp"]}
{"id": "C48", "title": "Interactive play satisfies the liveness objective", "statement": "If a play from a winning position is continued with XMAKETRANS or XMAKETRANSRANDOM forever, then all liveness guarantees are satisfied infinitely often, or some liveness assumption is violated from some point on.", "quantifier": "all accepted files with realizable specifications, all infinite plays whose finite beginnings occur in sessions", "why_tests_cant": "A statement about infinite plays.", "anchors": ["src/extensionInteractiveStrategy.hpp: XInteractiveStrategy::execute", "src/main.cpp"]}
{"id": "C49", "title": "XCOMPLETEINIT is right", "statement": "The answer to XCOMPLETEINIT is right for every choice of fixed and open values: FAILASSUMPTIONS, FAILGUARANTEES or FORCEDNONWINNING is printed exactly in the situation named, and otherwise an initial position that agrees with the characters typed and is winning for the player for whom the specification is realizable; the letters tell which values are forced by the assumptions, the guarantees or the strategy.", "quantifier": "all accepted files (realizable or not), all moments of all sessions, all characters typed", "why_tests_cant": "The answers depend on the winning positions, which quantify over all strategies, and on all completions of the values typed.", "anchors": ["src/extensionInteractiveStrategy.hpp: XInteractiveStrategy::execute", "src/main.cpp"]}
{"id": "C50", "title": "XSTRATEGYTRANSITION is right", "statement": "The answer to XSTRATEGYTRANSITION is right for every choice of fixed and open values: the transition printed is allowed, belongs to a winning strategy of the player for whom the specification is realizable, agrees with the characters typed, leads to a position from which the play can go on if possible; the letters tell which values are forced; and the numbers of the next assumption and guarantee are increased exactly if the transition satisfies the current ones.", "quantifier": "all accepted files (realizable or not), all moments of all sessions, all characters and numbers typed", "why_tests_cant": "Belonging to a winning strategy is a statement about all plays.", "anchors": ["src/extensionInteractiveStrategy.hpp: XInteractiveStrategy::execute", "src/main.cpp"]}
{"id": "C51", "title": "CHECKTRANS and MOVE are right", "statement": "CHECKTRANS says rightly whether the position is winning, whether the transition satisfies the safety assumptions and guarantees, which liveness properties it satisfies and for which goals the strategy contains it. MOVE takes a step of a winning strategy for the goal given, with the input given, and describes it rightly; the position afterwards is the one that the input given and the output printed describe.", "quantifier": "all accepted files with realizable specifications, all moments of all sessions, all numbers typed", "why_tests_cant": "As C50.", "anchors": ["src/extensionInteractiveStrategy.hpp: XInteractiveStrategy::execute", "src/main.cpp"]}
{"id": "C52", "title": "The goal printed is the one pursued", "statement": "The goal printed by XGETINIT, XMAKETRANS and XMAKETRANSRANDOM is the one that is pursued in the next step.", "quantifier": "all accepted files with realizable specifications, all moments of all sessions", "why_tests_cant": "Which goal a step pursues is a statement about all plays.", "anchors": ["src/extensionInteractiveStrategy.hpp: XInteractiveStrategy::execute", "src/main.cpp"]}
{"id": "C53", "title": "Every request gets one answer", "statement": "In an interactive session, every well-formed request gets exactly one answer, and the program returns at the end of the input.", "quantifier": "all accepted files, all lists of well-formed requests, with all possible layouts of white space", "why_tests_cant": "Must hold for every sequence of requests.", "anchors": ["src/extensionInteractiveStrategy.hpp: XInteractiveStrategy::execute", "src/main.cpp"]}
{"id": "C54", "title": "For unrealizable specifications, the session is the environment's", "statement": "If the specification is unrealizable, all answers (except those to MOVE and XMAKETRANSRANDOM) are right for the environment: they belong to one and the same family of moves with which the environment keeps the system from winning: it obeys the safety assumptions, does not depend on the system's next move, is defined wherever the system cannot win, and makes every play violate the liveness objective or the safety guarantees.", "quantifier": "all accepted files with unrealizable specifications, all sessions, all infinite plays", "why_tests_cant": "A statement about all strategies and infinite plays.", "anchors": ["src/extensionInteractiveStrategy.hpp: XInteractiveStrategy::execute", "src/main.cpp"]}
{"id": "C55", "title": "Fast and slow outputs: the verdict", "statement": "With --IROSfastslow, a file with sections [OUTPUT_F] and [OUTPUT_S] is accepted if it is well-formed, denotes one specification, and the verdict is \"realizable\" if and only if the system can win although in each step it passes through an intermediate position, where the inputs and the fast outputs have their next values and the slow outputs still have their current ones, that has to be safe (some step that obeys the safety guarantees starts there, and some such step ends there). With or without --sysInitRoboticsSemantics.", "quantifier": "all files, all BDD variable orders, both semantics of the initial positions", "why_tests_cant": "Being realizable quantifies over all strategies and all infinite plays, for every file.", "anchors": ["src/extensionIROSfastslow.hpp: XIROSFS::init, XIROSFS::computeWinningPositions, XIROSFS::checkRealizability", "src/main.cpp"]}
{"id": "C56", "title": "Fast and slow outputs: explicit strategies", "statement": "With --IROSfastslow and one of the options for explicit strategies, a strategy is printed if and only if the specification is realizable; it has exactly one successor (the permissive one: at least one) for each allowed input, its steps obey the safety guarantees and pass through safe intermediate positions, its infinite runs satisfy the liveness part of the specification, and it covers the initial inputs (or positions).", "quantifier": "all files, all BDD variable orders, both semantics of the initial positions, with and without recovery", "why_tests_cant": "A statement about all infinite runs of strategies for all files.", "anchors": ["src/extensionIROSfastslow.hpp: XIROSFS::init, XIROSFS::computeWinningPositions, XIROSFS::checkRealizability", "src/main.cpp"]}
{"id": "C57", "title": "Structured specifications: which formulas are accepted", "statement": "The structured slugs compiler translates a line if and only if it is a formula in infix notation (with the documented precedences; negation, next, conjunction, disjunction, implication, bi-implication, comparisons of sums) in which integer variables are declared with lower bounds that are not negative, and next values are not used below next. The tables of its parser accept exactly the language of its grammar, the grammar is unambiguous, a line has one meaning, and the compiler always comes to an end. (It does not if a variable with a negative lower bound is compared, and the documented operators ^, - and * are refused.)", "quantifier": "all lines, all declarations", "why_tests_cant": "The language is infinite; the tables of the parser have hundreds of states.", "anchors": ["tools/StructuredSlugsParser/compiler.py: tokenize, clean_tree, flatten_as_much_as_possible, parseLTL, parseSimpleFormula", "tools/StructuredSlugsParser/Parser.py: Parser", "tools/StructuredSlugsParser/grammar.wi"]}
{"id": "C58", "title": "Structured specifications: the translation of formulas is right", "statement": "The text that the structured slugs compiler prints for a line is the text of a well-formed formula in slugs' own notation, is read as such by slugs, only uses Boolean variables of the line and bits of its integer variables, and holds exactly if the line does, whenever the bits of each integer variable are the binary representation of its distance from its lower bound.", "quantifier": "all lines, all declarations, all values of the variables", "why_tests_cant": "Formulas and bounds are unbounded; adders and comparisons are built from them.", "anchors": ["tools/StructuredSlugsParser/compiler.py: tokenize, clean_tree, flatten_as_much_as_possible, parseLTL, parseSimpleFormula", "tools/StructuredSlugsParser/Parser.py: Parser", "tools/StructuredSlugsParser/grammar.wi", "tools/StructuredSlugsParser/compiler.py: computeCalculationSubformula, recurseCalculationSubformula, addMinimumValueToAllVariables"]}
{"id": "C59", "title": "Structured specifications: the verdict is that of the structured specification", "statement": "For every proper structured specification file (sections, comments, declarations of Boolean and of integer variables with bounds, constraints in infix notation or in the notation of slugs) the structured slugs compiler prints a slugs file, with and without --thorougly, and slugs' verdict on this file is realizability of the game over the values of the declared variables, integers within their bounds, in the standard and in the robotics semantics and with all algorithms. The added constraints on unused bit patterns change nothing. (A constraint that starts with a bracket [ is silently lost, and so is text before the first header.)", "quantifier": "all texts that are structured specifications, all algorithms, all variable bounds", "why_tests_cant": "Files, formulas and bounds are unbounded; the claim relates two infinite games over different state spaces.", "anchors": ["tools/StructuredSlugsParser/compiler.py: performConversion, isValidRecursiveSlugsProperty, translateToSlugsFormat", "src/synthesisContextBasics.cpp: GR1Context::init", "doc/input_formats.md"]}
{"id": "C60", "title": "The run printed by --computeInterestingRunOfTheSystem is a run of the game", "statement": "For every accepted file (in which no variable name contains @) the command comes to an end. It reports that there is no suitable start if and only if there is no position that is initial for both players and from which the system wins. Otherwise it prints a table: the first row is an initial position from which the system wins, every row shows the values of all variables, every next row is reached by a step that obeys the safety assumptions and the safety guarantees and after which the system still wins, the goals are numbered one after the other, a mark tells that a goal is reached, and the table has 100 steps unless the environment has no allowed input any more, which is then reported. (Partly false: the marks refer to another step than the one shown; Sys.Loses can be printed for realizable files; and vectors are read outside of their bounds whenever a table is printed.)", "quantifier": "all files without @ in names, all outcomes of rand(), all choices made by the environment's strategy", "why_tests_cant": "Specifications and random numbers are unbounded, and a test sees one run of at most 100 steps per file.", "anchors": ["src/extensionComputeInterestingRunOfTheSystem.hpp: computeRun, execute", "src/tools.cpp: determinize, determinizeRandomized", "src/BFCudd.h: BFBdd::operator<"]}
{"id": "C61", "title": "The printed text of a strategy determines the strategy, and --jsonOutput prints JSON", "statement": "What is printed with --jsonOutput is a JSON text (RFC 8259) whose value lists the names of all variables and, under pairwise different keys, for each state of the strategy its goal, the values of the variables in the order of the names and the numbers of its successors; no information is lost. The text formats of --explicitStrategy, --extractExplicitPermissiveStrategy and --counterStrategy determine the strategy for a given file. (False for JSON if a name contains a quotation mark or a backslash, which are not escaped.)", "quantifier": "all files, all options, all states and successors", "why_tests_cant": "Names, strategies and numbers of states are unbounded; a test compares one output.", "anchors": ["src/extensionExtractExplicitStrategy.hpp: computeAndPrintExplicitStateStrategy", "src/extensionPermissiveExplicitStrategy.hpp: computeAndPrintExplicitStateStrategy", "src/extensionExtractExplicitCounterstrategy.hpp: computeAndPrintExplicitStateStrategy, addDeadlocked"]}
{"id": "C62", "title": "The verdict for non-deterministic motion abstractions is right", "statement": "With --nonDeterministicMotion, a proper specification file together with region BDD files and the BDD file of a robot leads to the verdict \"realizable\" exactly if the system has a strategy for the motion controls such that, whatever allowed motion state the robot ends up in, the robot can always move, the safety guarantees hold, and the liveness guarantees hold if the liveness assumptions hold and the robot does not forever refuse to change its motion state when it can; otherwise to \"unrealizable\". Both in the standard and in the robotics semantics. (False for files with other outputs and for files whose initial or safety assumptions mention the motion state.)", "quantifier": "all files, BDD files and robots; all moves of the environment and the robot", "why_tests_cant": "Files, robots and plays are unbounded; a test tries one robot on one specification.", "anchors": ["src/extensionNondeterministicMotion.hpp: XNonDeterministicMotion::init, parseBooleanFormulaRecurseEx, checkRealizability, addAutomaticallyGeneratedLivenessAssumption", "src/BFCuddManager.cpp: readBDDFromFile"]}
{"id": "C63", "title": "The printed estimator is the optimal one for the observable inputs", "statement": "With --computeIncompleteInformationEstimator, every proper file leads to a printed piece of a specification with one safety guarantee and one safety assumption. The guarantee allows exactly those updates of the estimates (outputs) that keep all safety guarantees whatever the unobservable inputs are in every situation that fits the observations, and among these only those that are best for the outputs min_* (true if possible) and max_* (false if possible), later outputs first; it mentions no unobservable input. If the environment obeys its assumptions and the estimates are updated like that, all guarantees and the printed assumption hold forever; the assumption says exactly what can be observed next and mentions neither unobservable nor controllable next inputs. Bounds (min_*, max_*) are determined. A warning about the initial state, about the environment's dead ends or about the estimator's dead ends is printed exactly if there is none, resp. such dead ends; without the latter, the estimator can always react.", "quantifier": "all files; all sequences of observable and unobservable inputs", "why_tests_cant": "Files and input sequences are unbounded, and the claim is about all values of inputs that cannot be observed; a test tries one file and one sequence.", "anchors": ["src/extensionIncompleteInformationEstimatorSynthesis.hpp: XIncompleteInformationEstimatorSynthesis::init, execute, recursePrintBFAsSlugsExpression, printBFAsSlugsExpression", "src/main.cpp: main"]}
{"id": "C64", "title": "The searches for parameters find what they say", "statement": "tools/binaryRealizabilitySearch.py, called with a script whose verdict is monotone (antitone) in its parameter, prints the least (greatest) value of the range for which the script says realizable, or that there is none, after at most logarithmically many calls, the last of which is with that value; even without monotonicity, a value that is printed is realizable and in the range. tools/multiDimensionalRealizabilitySearch.py, called with a script whose verdict is monotone or antitone in each parameter as declared, ends and prints exactly the Pareto front of the realizable parameter values. A verdict of the script counts exactly if it ends with exit code 0 and exactly one of its lines is a verdict.", "quantifier": "all scripts (functions from values to verdicts), all ranges, any number of parameters", "why_tests_cant": "Ranges, dimensions and scripts are unbounded; a test tries one script on one range.", "anchors": ["tools/binaryRealizabilitySearch.py: checkRealizability, __main__", "tools/multiDimensionalRealizabilitySearch.py: tupleComparator, runSearch"]}
{"id": "C65", "title": "The core finder finds a minimal unrealizable core", "statement": "tools/findMinimalUnrealizableCore.py, applied to an unrealizable specification, leaves in /tmp/core.slugsin a specification with the same variables, the same assumptions and the same initial guarantees and with some of the safety guarantees and liveness guarantees of the given one, that is unrealizable and becomes realizable as soon as any one of its safety or liveness guarantees is left out; applied to a realizable specification, it leaves the specification as it is.", "quantifier": "all proper slugsin files, all BDD implementations, both synthesis algorithms", "why_tests_cant": "That a core is minimal is a claim about every remaining guarantee and about realizability of infinite games; a test looks at one specification.", "anchors": ["tools/findMinimalUnrealizableCore.py: isRealizable, findMinimalCore", "src/main.cpp: commandLineArguments, main"]}
{"id": "C66", "title": "Decoded strategies implement the structured specification", "statement": "If a structured specification is translated by the structured slugs compiler, slugs is run on the result with --explicitStrategy, and the output is passed through tools/explicitImplementationIntegerDecoder.py, then the final text is the listing of an explicit strategy for the structured specification itself: every state is labelled with a value within its bounds for each variable with more than one value, the initial states cover all allowed initial inputs, there is exactly one successor for each allowed next input, all steps obey the safety guarantees, and all infinite runs along which the assumptions hold satisfy the liveness guarantees.", "quantifier": "all structured slugs files, both modes of the compiler, all BDD implementations, all versions of the synthesis algorithm, both initialisation semantics", "why_tests_cant": "It is a claim about a chain of three programs, all bounds of integer variables and all infinite runs.", "anchors": ["tools/explicitImplementationIntegerDecoder.py: decodeLine", "tools/StructuredSlugsParser/compiler.py: performConversion", "src/extensionExtractExplicitStrategy.hpp: computeAndPrintExplicitStateStrategy"]}
{"id": "C67", "title": "The graph of a strategy shows that strategy", "statement": "tools/explicitStrategyToGraphviz.py, applied to the output of slugs with --explicitStrategy, prints a DOT graph with the names of the variables, with one node for each state of the strategy (labelled with its values in the order of the names, and its rank), with one edge for each listed successor, and with nothing else.", "quantifier": "all proper slugsin files and strategies, all BDD implementations, all versions of the algorithm", "why_tests_cant": "It is a claim about the texts of all strategies, of any size and with any names.", "anchors": ["tools/explicitStrategyToGraphviz.py", "src/extensionExtractExplicitStrategy.hpp: computeAndPrintExplicitStateStrategy"]}
{"id": "C68", "title": "Reports on stuck signals are right", "statement": "tools/analyzeStuckAtConstant.py, applied to a structured specification, prints whether it is realizable. If it is, the tool lists for every output exactly the values such that the specification is still realizable when the output must have this value all the time; if it is not, it lists for every input exactly the values such that the specification is still unrealizable when the input has this value all the time.", "quantifier": "all proper structured slugs files whose white space is blanks, tabulators and line feeds; all BDD implementations and versions of the algorithm", "why_tests_cant": "The report makes one claim about a modified synthesis game for each value of each variable, over all strategies and infinite runs.", "anchors": ["tools/analyzeStuckAtConstant.py: analyzeStuckAtConstant, readSlugsFile, writeSlugsFile", "tools/StructuredSlugsParser/compiler.py: performConversion", "src/gr1context.hpp: GR1Context"]}
{"id": "C69", "title": "Safety specifications are translated to equivalent circuits", "statement": "tools/translateSafetySlugsSpecToSyntCompAIGFormat.py, applied to a slugs file without liveness constraints, prints a well-formed circuit in the AIGER format whose inputs are the variables of the file, where the outputs are marked as controllable. The only output of the circuit is true exactly in those rounds in which a guarantee is violated while the assumptions have been satisfied so far. Hence the output can be kept false for ever if and only if the specification is realizable. Files with liveness constraints are rejected.", "quantifier": "all proper slugs files without liveness constraints whose constraints are written with single blanks; all infinite sequences of values of the variables, all controllers", "why_tests_cant": "The circuit must agree with the specification on all infinite runs, for formulas of any size and nesting; wrong gates may only matter in rare rounds.", "anchors": ["tools/translateSafetySlugsSpecToSyntCompAIGFormat.py: recurseMakeAIGEncodingOfBooleanFormula, produceAIGFileFromSlugsFile"]}
{"id": "C70", "title": "The resilience checker finds all maximal sets of assumptions that can be violated arbitrarily often", "statement": "The first search of tools/kResilientRealizabilityChecker.py ends for every slugs file, and it finds exactly the maximal sets of safety assumptions such that the system can tolerate any number of violations of them: it never violates its own safety guarantees, and it still reaches all goals infinitely often if there are finitely many violations and the liveness assumptions hold. Every set that can be tolerated is contained in one that is found. Assumptions after a comment '## Variable limits' are never violated. Nothing is found if and only if the specification is unrealizable.", "quantifier": "all proper slugs files with any number of assumptions, all algorithms and variable orders of slugs; all strategies and infinite plays", "why_tests_cant": "The number of sets is exponential, the search skips sets because of answers for others, and each answer is about all strategies of infinite games.", "anchors": ["tools/kResilientRealizabilityChecker.py: getFrontierSetInLatticeRecurse, getFrontierSetInLattice, checkInftyRobustImplementability, findInftyRobustSolutions"]}
{"id": "C71", "title": "The resilience checker prints exactly the maximal levels of resilience that are achievable", "statement": "For every slugs file whose names do not start with _ResilienceCounter_, tools/kResilientRealizabilityChecker.py ends. If the specification is unrealizable, it says so. Otherwise it prints, each once, exactly the maximal pairs of a level for every safety assumption (none, some, any) and a number k such that the system has a strategy that tolerates the violations: assumptions with level none are not violated, those with level some are violated at most k times before the system has recovered, those with level any are violated arbitrarily often; if there are finitely many violations then all goals are reached infinitely often, and the system recovers. (k is only greater than 1 if the violations cannot be tolerated arbitrarily often.) In particular the numbers k that are tried are bounded: if sufficiently many violations can be tolerated, then any number of them can be.", "quantifier": "all proper slugs files with any number of assumptions, all algorithms and variable orders of slugs, all sufficient counter widths; all strategies and infinite plays", "why_tests_cant": "There is no bound on k that could be tested; the search ends because of an argument about strategies that start anew after violations. Each answer is about all strategies of infinite games of generated specifications with a binary counter.", "anchors": ["tools/kResilientRealizabilityChecker.py: writeMixedRobustSpecification, binaryEncode, recurseSmaller, checkMixedRobustImplementability, findMixedRobustSolutions, isMoreAmbitionThanInftyRobustSolutions, MixedLatticeElement, main program"]}
{"id": "C72", "title": "With --twoDimensionalCost, the verdict is right for every cost file", "statement": "For every slugs file and every cost file (two weights, a preference, and lines with a cost and the transitions that have this cost), slugs with --twoDimensionalCost says that the specification is realizable, or prints a strategy, only if it is realizable and no transition has two different costs; it says that the specification is unrealizable only if it is; it reports overlapping costs only if some transition has two different costs; and there is no internal error. Properly written files are not rejected. If the costs and the waiting weight are not negative and the action weight is positive, then the run ends.", "quantifier": "all slugs files and cost files, all arithmetics of the costs, both semantics of initial conditions, all variable orders and numbers of rounds, with or without an explicit strategy", "why_tests_cant": "The search runs through combinations of costs that are created while it runs; that it ends, and that the verdict does not depend on the costs, is a statement about all cost files and all games.", "anchors": ["src/extensionTwoDimensionalCost.hpp: XTwoDimensionalCost::init, computeCostOptimalStrategy, checkRealizability, TwoDimensionalCostNotionTuple", "src/main.cpp: optionCombinations"]}
{"id": "C73", "title": "An explicit strategy that is printed with --twoDimensionalCost is a strategy", "statement": "An explicit strategy that is printed with --twoDimensionalCost is well-formed and starts in initial states, answers every move of the environment that obeys the safety assumptions with a move that obeys the safety guarantees, stays in winning positions, and all its runs in which the liveness assumptions hold reach all goals infinitely often; the number of the goal only changes when the goal has been reached.", "quantifier": "all slugs files and cost files, all arithmetics of the costs, all printed strategies, all of their states, transitions and infinite runs", "why_tests_cant": "It is a statement about all states and infinite runs of the strategies for all specifications; the tests of slugs compare verdicts only.", "anchors": ["src/extensionTwoDimensionalCost.hpp: computeCostOptimalStrategy", "src/extensionExtractExplicitStrategy.hpp: computeAndPrintExplicitStateStrategy", "src/extensionPermissiveExplicitStrategy.hpp"]}
{"id": "C74", "title": "The NuSMV instance for a specification and an automaton tells whether the automaton satisfies the specification", "statement": "For a slugs file and an automaton in the text format of slugs, makeNuSMVInstanceToTestAutomatonFileAgainstSlugsSpecification.py writes a well-formed NuSMV file. NuSMV finds that all properties in it hold if and only if all runs of the automaton that start with an allowed initial position satisfy the safety guarantees as long as the environment obeys the safety assumptions, and the liveness guarantees if it satisfies all assumptions. All properties hold for every strategy that slugs prints.", "quantifier": "all slugs files, all automata (lists of states with values and successors), all their finite and infinite runs", "why_tests_cant": "The file encodes a system with an additional initial state and outputs that are delayed by one step; that the formulas with their shifted 'next' operators say the same about it as the specification says about the automaton is a statement about all files, automata and infinite runs.", "anchors": ["tools/makeNuSMVInstanceToTestAutomatonFileAgainstSlugsSpecification.py"]}
{"id": "C75", "title": "The translator from LTLMop preserves the meaning of the specification", "statement": "For an SMV file with declarations and an LTL file whose assumptions and guarantees are formulas in GR(1) form over the declared variables, translateFromLTLMopLTLFormatToSlugsFormat.py writes a file that slugs reads. It declares the same variables, and in every infinite sequence of values the environment satisfies its assumptions if and only if the assumption formula holds, and the system its guarantees if and only if the guarantee formula holds. Formulas that are not of this form are rejected.", "quantifier": "all SMV and LTL files (texts), all formulas of linear temporal logic, all infinite sequences of values", "why_tests_cant": "The program parses formulas with a generated LR parser, splits conjunctions and classifies the parts as initial conditions, transitions and liveness conditions; that the result means the same concerns all formulas and infinite sequences of values.", "anchors": ["tools/translateFromLTLMopLTLFormatToSlugsFormat.py", "tools/parser.py"]}
{"id": "C76", "title": "The translator from RATSY preserves the meaning of the specification", "statement": "For a file in the format of RATSY whose assumptions and guarantees are formulas in GR(1) form that compare the declared variables with 0 and 1, translateFromRatsyFormatToSlugsFormat.py writes a file that slugs reads. It declares the same variables, and in every infinite sequence of values the environment satisfies its assumptions if and only if all assumptions in the file hold, and the system its guarantees if and only if all guarantees hold. Other formulas are rejected.", "quantifier": "all texts, all formulas of linear temporal logic, all infinite sequences of values", "why_tests_cant": "Sections, comments, formulas over several lines and the classification of formulas interact; that the written file means the same concerns all texts, formulas and infinite sequences of values.", "anchors": ["tools/translateFromRatsyFormatToSlugsFormat.py", "tools/parser.py"]}
{"id": "C77", "title": "A cooperative symbolic strategy is cooperative", "statement": "With --cooperativeGR1Strategy and --symbolicStrategy or --simpleSymbolicStrategy, slugs writes a strategy exactly for those accepted files for which a cooperative strategy exists. The variables in its header suffice to read it. Executed from a position with a cooperative strategy, it never blocks an allowed input, obeys the safety guarantees, stays in such positions, in which the environment always has an allowed input, changes the goal number exactly when a goal is reached, and satisfies the specification on every infinite run; and at any time the environment can go on such that all its liveness assumptions are fulfilled.", "quantifier": "all accepted files, both semantics of initial conditions, both kinds of symbolic strategies, all positions, goal numbers and infinite runs", "why_tests_cant": "The strategy is a Boolean function over all pairs of positions and goal numbers, and cooperation is a statement about infinite runs from all of them.", "anchors": ["src/extensionExtractSymbolicStrategy.hpp: XExtractSymbolicStrategy::execute, computeAndPrintSymbolicStrategy", "src/extensionCooperativeGR1Strategy.hpp: computeWinningPositions", "src/main.cpp: optionCombinations"]}
{"id": "C78", "title": "A symbolic strategy for fast and slow outputs passes through safe positions only", "statement": "With --IROSfastslow and --symbolicStrategy or --simpleSymbolicStrategy, slugs writes a strategy exactly for those accepted files that are realizable with safe intermediate positions. The variables in its header suffice to read it. Executed from a winning position, it never blocks an allowed input, obeys the safety guarantees, passes through safe intermediate positions, stays in winning positions, moves on to the next goal exactly when the current one is reached, and satisfies the liveness part of the specification on every infinite run.", "quantifier": "all accepted files, both semantics of initial conditions, both kinds of symbolic strategies, all positions, goal numbers and infinite runs", "why_tests_cant": "The strategy is a Boolean function over all pairs of positions and goal numbers, and liveness is a statement about infinite runs.", "anchors": ["src/extensionExtractSymbolicStrategy.hpp: XExtractSymbolicStrategy::execute, computeAndPrintSymbolicStrategy", "src/extensionIROSfastslow.hpp: init, checkRealizability", "src/main.cpp: optionCombinations"]}
{"id": "C79", "title": "A permissive strategy leaves out nothing that can be allowed when there are no goals", "statement": "In a strategy printed with --extractExplicitPermissiveStrategy, from every state every step is listed that obeys the safety assumptions and guarantees, fulfils the liveness guarantee the state pursues, and leads to a position from which the system wins. If the file has no liveness guarantees, the listed steps are exactly those that obey the safety constraints and lead to a winning position, so that every play of every winning strategy, from whatever position, is a run through the listing.", "quantifier": "all accepted files, all algorithms and both semantics of initial conditions, all printed states, all steps, all strategies of the system with unbounded memory and all their infinite plays", "why_tests_cant": "Maximality compares the listing with all strategies of the system, of which there are infinitely many, along infinite plays.", "anchors": ["src/extensionPermissiveExplicitStrategy.hpp: class comment, computeAndPrintExplicitStateStrategy", "src/gr1context.hpp: computeWinningPositions, strategyDumpingData"]}
{"id": "C80", "title": "Replacing integer variables in a structured specification keeps the meaning of its formulas", "statement": "When integerVariableSubstitutor.py prints a line for a formula of a structured specification, the printed line is again a formula, and it holds in exactly the situations in which the given one holds, if every replaced variable has the value of the difference of the two terms given for it in the replacement file. Boolean propositions are untouched, and no integer variables are used but those of the formula and of the terms.", "quantifier": "all formulas in infix notation without bit overwrites, all replacement tables with terms that are sums, all values of the variables, all bounds", "why_tests_cant": "The set of formulas is infinite, as is the set of values; tests can compare outputs on single lines only.", "anchors": ["tools/StructuredSlugsParser/integerVariableSubstitutor.py: parseLTL, treeReplace, treeReplaceExpression, translateTreeToStructuredSlugsLine, performReplacement"]}
{"id": "C81", "title": "Shifting the values of integer variables with integerVariableSubstitutor.py keeps the verdict", "statement": "When integerVariableSubstitutor.py is applied to a structured specification, with a replacement file that gives for some of its integer variables another name and a constant by which the values are shifted (for the declaration, the name and the primed name), then whatever it prints is a proper structured specification with the shifted variables in the same order, and it is realizable exactly when the given specification is, also in the robotics semantics. So compiling it and running slugs gives the verdict for the given specification, although the compiler alone cannot handle the negative lower bounds in it.", "quantifier": "all structured specifications (with any bounds) without bit overwrites, all sets of shifted variables, all constants, all layouts of both files with comments and blank lines", "why_tests_cant": "Specifications and their plays are unbounded in number and size; a test compares the verdicts for single files.", "anchors": ["tools/StructuredSlugsParser/integerVariableSubstitutor.py: performReplacement, treeReplace, translateTreeToStructuredSlugsLine", "tools/StructuredSlugsParser/compiler.py: performConversion"]}
{"id": "C82", "title": "The specification report is correct", "statement": "createSpecificationReport.py makes a report for every proper structured specification. It shows the lines of the specification up to the end mark (HTML control characters are escaped, so that what is shown is the text itself), says whether the specification is realizable and, if so, whether it is realizable in the robotics semantics. It prints the numbers of positions, of winning positions, and of initial positions (and inputs) of each kind; then the same where a position is winning if the system can make the environment violate its assumptions, and again for the reachable positions only. It shows the report on signals that can be stuck at a constant.", "quantifier": "all structured specifications, all layouts of the file with comments and blank lines, all BDD libraries with the contract, all variable orders", "why_tests_cant": "The verdicts and numbers are about infinite plays of unboundedly many specifications; a test compares the report for single files.", "anchors": ["tools/createSpecificationReport.py", "src/extensionAnalyzeInitialPositions.hpp: XAnalyzeInitialPositions::execute", "tools/analyzeStuckAtConstant.py"]}
{"id": "C83", "title": "The fuzzer against another solver raises no false alarm and misses no wrong verdict", "statement": "fuzzSafetySpecsAgainstAisy.py generates, whatever the random choices, a file that slugs reads without complaint: five Boolean inputs and outputs, initial and safety constraints only, inputs' next values in assumptions, no output's next value there. Its translation to a circuit is realizable if and only if the specification is. Every specification of this shape can be generated. If the other solver judges the circuit correctly, a round is passed if and only if slugs gives the right verdict; slugs itself always passes. The loop prints one sign per passed round and stops at the first failed one.", "quantifier": "all random choices, all depths of formulas, all numbers of rounds, all verdicts of slugs, all BDD libraries with the contract, all variable orders", "why_tests_cant": "A fuzzer is itself a program whose faults make its alarms worthless; which random choices lead to which files, and whether both tools are asked the same question, cannot be sampled.", "anchors": ["tools/fuzzSafetySpecsAgainstAisy.py: fuzzOnce, makeAProperty", "tools/translateSafetySlugsSpecToSyntCompAIGFormat.py", "src/synthesisContextBasics.cpp"]}
{"id": "C84", "title": "The fuzzer of slugs tests slugs on random specifications", "statement": "slugsFuzzer.py makes up, whatever the random choices, an SMV file and an LTL file that the translator accepts; the translated specification has the variables in0..in2 and out0..out2, and says the same as the formulas that were made up. Every specification of the described shape (safety and liveness constraints with negation, conjunction, disjunction and next) can be made up. Slugs is then run on the translated specification, with whatever options the user adds, and a round only fails if slugs or an implementation is wrong.", "quantifier": "all random choices, all depths of formulas, all options given by the user, all process numbers", "why_tests_cant": "That every random choice leads to a translatable specification of the same meaning, and that no options make the round succeed, are statements about unboundedly many runs.", "anchors": ["tools/slugsFuzzer.py: fuzzOnce, makeAProperty", "tools/translateFromLTLMopLTLFormatToSlugsFormat.py", "src/main.cpp: main"]}
{"id": "C85", "title": "The simulator on the terminal shows plays of the strategy", "statement": "Whatever keys are pressed in cursesSimulator.py, the columns of the table that have no flag show a play of the specification: the first one is a first position from which the player who wins can start, each further one is a transition that both players' safety constraints allow and in which the player who wins follows one fixed strategy, and the numbers of the liveness properties below the columns only go on when the property is satisfied. Typing digits sets the value under the cursor to the number typed, backspace removes the last digit, the arrow keys move the cursor and add or remove the last column, and the values entered by hand are kept, also when the user goes back and returns; without a flag they are within the bounds of the variable. No key makes the program stop with an exception while the table is shown. Every proposition of a compiled specification belongs to exactly one line of the table.", "quantifier": "all specifications, all sequences of keys, all sizes of the terminal, all lists of declared variables", "why_tests_cant": "Sequences of keys and specifications are unbounded, and whether a column is allowed depends on who wins the game from it.", "anchors": ["tools/cursesSimulator.py", "src/extensionInteractiveStrategy.hpp: execute (XCOMPLETEINIT, XSTRATEGYTRANSITION)"]}
{"id": "C86", "title": "The benchmarks about Cinderella and the stepmother ask who wins that game", "statement": "The file that cinderella_stepmother.py writes for n buckets, an emptying power, a capacity and a number of units is a proper structured specification; the compiler translates it, and slugs reports the result realizable exactly if Cinderella, emptying that many neighbouring buckets of the circle per round, can prevent forever that a bucket overflows, whatever the stepmother adds.", "quantifier": "all numbers of buckets, emptying powers, capacities and units (at least one bucket and one emptied bucket), all algorithms of slugs, compiled with and without --thorough", "why_tests_cant": "There are infinitely many configurations, and who wins the game of buckets ranges over all plays; tests can only compare verdicts of some files with expected ones.", "anchors": ["examples/benchmark_generators/cinderella_stepmother.py: makeBenchmarkFile", "tools/StructuredSlugsParser/compiler.py: performConversion"]}
{"id": "C87", "title": "The benchmarks about the moving obstacle ask whether the robot can evade it", "statement": "The file that moving_obstacle_evasion.py writes for a width, a height and a number of glitches is a proper structured specification; the compiler translates it, and slugs reports the result realizable exactly if the robot, moving by at most one cell in both directions per step, can evade forever an obstacle of 2 times 2 cells that moves only after it has rested, but for that many glitches.", "quantifier": "all widths and heights of at least two, all numbers of glitches, all algorithms of slugs, compiled with and without --thorough", "why_tests_cant": "There are infinitely many configurations, and whether the robot can evade the obstacle ranges over all its strategies and all moves of the obstacle; tests can only compare verdicts of some files with expected ones.", "anchors": ["examples/benchmark_generators/moving_obstacle_evasion.py: makeBenchmarkFile", "examples/benchmark_generators/moving_obstacle_evasion.tex", "tools/StructuredSlugsParser/compiler.py: performConversion"]}
{"id": "C88", "title": "The script that tests the examples tells whether their verdicts are the expected ones", "statement": "testSomeExamples.py ends with \"Done!\" exactly if every specification listed as realizable is realizable and every one listed as unrealizable is unrealizable, for plain and for structured files; otherwise it names the first example with another verdict, together with the right verdict. It does not end with \"Done!\" if the compiler or slugs refuses a file.", "quantifier": "all lists of example files that slugs or the compiler can read (for the last part, all lists), all algorithms of slugs", "why_tests_cant": "The lists and the files can be any; a test of the script only shows that it accepts or refuses some lists, and not that its verdict on structured files, which it copies with additional empty lines, is that of the specification.", "anchors": ["tools/testSomeExamples.py: checkRealizability", "tools/StructuredSlugsParser/compiler.py: performConversion", "src/synthesisContextBasics.cpp: GR1Context::execute", "src/main.cpp: main"]}
{"id": "C89", "title": "The assembly line benchmarks have the verdict of the assembly line", "statement": "For every number n >= 3 of places, m >= 1 of tasks, k >= 1 of steps between moves of the belt and every number of errors, the file that factory_assembly_line.py writes is a proper structured specification, which the compiler translates; and slugs calls the result realizable exactly if the two arms can perform all tasks on every object before it leaves the belt.", "quantifier": "all numbers of places (at least 3), tasks, steps and errors; all algorithms of slugs", "why_tests_cant": "The file has a number of variables and constraints that depends on the parameters, and the game has exponentially many states; the script has only been run for 15 configurations, and no test compares the verdicts with the assembly line.", "anchors": ["examples/benchmark_generators/factory_assembly_line.py: makeBenchmarkFile", "tools/StructuredSlugsParser/compiler.py: performConversion", "src/main.cpp: main"]}
{"id": "C90", "title": "Tasks of the assembly line are performed before the push", "statement": "As described in factory_assembly_line.tex: in the assembly line benchmarks, tasks that the arms perform are applied before the push. In every step in which the belt moves, the object at place a+1 has a task afterwards exactly if the object at place a had it or an arm performed it at place a; in all other steps, the object at place a has it afterwards exactly if it had it or an arm performed it at place a.", "quantifier": "all numbers of places, tasks, steps and errors, all transitions of the specification", "why_tests_cant": "The files are large and the order of work and push only shows in single transitions of a play, not in the verdicts that the script's users see.", "anchors": ["examples/benchmark_generators/factory_assembly_line.tex", "examples/benchmark_generators/factory_assembly_line.py: makeBenchmarkFile"]}
{"id": "C91", "title": "Benchmarks do not become realizable when they become harder", "statement": "If slugs calls a benchmark of one of the three generated families realizable, then it does so for every easier one: with more power of Cinderella, larger buckets or less water; with fewer glitches of the moving obstacle; with a longer belt, fewer tasks, more steps between moves of the belt or fewer errors of the assembly line. This holds for all algorithms, also if different ones are used for the two files.", "quantifier": "all pairs of parameters of which one is easier in each component; all algorithms of slugs and both modes of the compiler", "why_tests_cant": "There are infinitely many pairs of parameters, and the games of all but the smallest are too large to be compared by enumeration.", "anchors": ["examples/benchmark_generators/cinderella_stepmother.py: makeBenchmarkFile", "examples/benchmark_generators/moving_obstacle_evasion.py: makeBenchmarkFile", "examples/benchmark_generators/factory_assembly_line.py: makeBenchmarkFile", "src/main.cpp: main"]}
{"id": "C92", "title": "Verdicts of the assembly line benchmarks in closed form", "statement": "Without errors, slugs calls the assembly line benchmark with n places, m tasks and k steps between moves of the belt realizable exactly if m <= 2k+1, whatever the length of the belt (so the rows without errors of the table in factory_assembly_line.tex are right). With any number of errors, it is unrealizable if m > 2k+1, and realizable if m <= 2k; for m = 2k+1, it is unrealizable if there are more than n*m+2k errors. With at least one error, it is unrealizable if n*k <= m.", "quantifier": "all numbers of places (at least 3), tasks, steps and errors; all algorithms of slugs and both modes of the compiler", "why_tests_cant": "The table has six such rows, one of which took slugs nine minutes; the law is about infinitely many benchmarks of growing size.", "anchors": ["examples/benchmark_generators/factory_assembly_line.py: makeBenchmarkFile", "examples/benchmark_generators/factory_assembly_line.tex", "src/main.cpp: main"]}
{"id": "C93", "title": "How many errors the assembly line benchmarks can take", "statement": "With m = 2k+1 tasks, slugs calls the assembly line benchmark with n places and k steps between moves of the belt realizable exactly if there are at most 2((n-2)k-1) errors; with fewer tasks it is realizable, and with more it is not. In particular, the rows with errors of the table in factory_assembly_line.tex are right, and the benchmark whose verdict is given as unknown there (7 places, 5 tasks, 2 steps, 11 errors) is realizable.", "quantifier": "all numbers of places (at least 3), steps and errors; all algorithms of slugs and both modes of the compiler", "why_tests_cant": "slugs did not solve the benchmark with 7 places, 5 tasks and 11 errors within four hours; the law is about infinitely many benchmarks of growing size.", "anchors": ["examples/benchmark_generators/factory_assembly_line.py: makeBenchmarkFile", "examples/benchmark_generators/factory_assembly_line.tex", "src/main.cpp: main"]}
