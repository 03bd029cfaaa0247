# Formal model of slugs in Lean 4 — design

Source modelled: `/repo` (slugs, C++). All line numbers cited in the Lean files refer to `/repo/src` unless a
path says otherwise. Lean project: `/verif/lean`, modules under `Verif/`.

## 1. Layers

1. `Verif/Spec/*` — small specifications that know nothing about the code: GR(1) games, plays, strategies,
   the meaning of formulas, of files, of the command line.
2. `Verif/Model/*` — the code, function by function. Each definition cites file and lines.
3. `Verif/Lemmas/*` — helper lemmas.
4. `Verif/Props/*` — the property theorems (one file per group of properties), each followed by an `example`
   which shows that a concrete, non-trivial case meets its hypotheses.

### Boolean functions (BDDs)
CUDD is not part of the repository's own source; it is modelled by its contract (`Model/BDD.lean`): a type `B` of nodes,
decidable equality, an evaluation `eval : B → (Nat → Bool) → Bool` that is injective (canonicity: `==` in
`BFCudd.h:96` is pointer equality) and whose values have finite support, and operations (`&`, `|`, `^`, `!`, variables,
constants, `ExistAbstract`, `UnivAbstract`, `SwapVariables`) with their exact meaning. `Model/ROBDD.lean` implements
the contract by reduced ordered decision trees, so that it is known to be satisfiable (C34) and the model can be run.

The synthesis algorithms are written once, polymorphic in the type of Boolean functions, over a record of the operations
they use (`Model/Mgr.lean`). They are instantiated (a) with a BDD type over CUDD variable numbers plus the cubes and vectors
computed by the variable manager, and (b) with plain sets of transitions over `I × O` (inputs × outputs), where the game
proofs are done. A transfer theorem connects (a) and (b).

### Loops
`BFFixedPoint` loops (`gr1context.hpp:95-110`) are modelled with an explicit bound on the number of rounds; running out
of rounds is a distinct outcome (`none`), so "terminates" is a theorem (C03) and not an assumption. Theorems are
stated for every bound at least as large as an explicit number.

### Undefined behaviour, exceptions
Undefined behaviour (reading outside of a vector, using a null BDD) is a distinct outcome of the parser model. Exceptions are
outcomes as well. `assert` is compiled out (`src/Makefile`: `-DNDEBUG`) and therefore not part of the model.

## 2. Plan per property

| id | modelled | proof |
|----|----------|-------|
| C01 | `computeWinningPositions` over sets of transitions; strategies and plays in `Spec/Game.lean` | ranks = index in the preferred-transition list; the rank never increases until the goal is met |
| C02 | same | environment strategy from the complements of the iterates |
| C03 | loop with round bound | iterates form a monotone chain in a finite lattice |
| C04 | `checkRealizability` | C01+C02 |
| C05 | parser + `checkRealizability` over variable numbers | support of the result is empty |
| C06 | `XRoboticsSemantics::checkRealizability` | C01+C02 |
| C07 | `XCounterStrategy` | step-by-step complement of C01's fixed points |
| C08 | `XFixedPointRecycling` | start values lie between the fixed point and its image |
| C09 | `XBiasForAction` | the additional least fixed point only adds positions that the standard loop finds as well |
| C10-C12 | `XExtractExplicitStrategy` (work list, numbering, goal switching) | loop invariants; rank argument of C01 |
| C13 | `determinize`, `determinizeRandomized` (random bits = arbitrary stream) | induction on the variable list |
| C14 | permissive strategy | rank argument |
| C15 | symbolic strategy | rank argument, counter encoding |
| C16 | explicit counterstrategy (`XExtractExplicitCounterStrategy`) | loop invariants; fails without output variables: witness, positive part as `_partial` |
| C17 | the character-level parser | induction on formulas |
| C18 | parser with an oracle for operand order | induction on the stream |
| C19 | parser + `init` | support invariant |
| C20 | parser with undefined behaviour as an outcome | expected to fail (`$ 0`, `? i` before `i` is stored): witness; positive part as `_partial` |
| C21 | `addVariable`, `computeVariableInformation`, `init` | invariant of the declaration list |
| C22 | `init` duplicate check | list/set cardinality |
| C23 | `init` as a fold over lines | commutation of the fold |
| C24 | everything above | composition of the transfer theorem with C04 |
| C25 | `runMain` with the complete table of option combinations | modes as an independent description of the permitted combinations; sets as sorted lists; the table is compared entry by entry with the modes |
| C26 | `getNofSatisfyingAssignments` | induction on the diagram |
| C27 | `runCnf` (`Model/Cnf.lean`) | invariant of the loops: what has been covered is a union of prime implicants; the number of uncovered assignments decreases; meaning of lines in `Spec/Cnf.lean` |
| C28 | core algorithm | monotonicity of strategies |
| C29 | `initContextParts`, `reactiveDistances`, `findings` (`Model/Assumptions.lean`) | fixed points of the reduced games; fails (`safetyEnv` is set to true, empty list of assumptions): two witnesses; converse and positive part as `_partial` |
| C30 | `computeWinningPositionsBA`, `executeBA`, `runInterleave` (`Model/Interleave.lean`) | the three-phase predecessor is the ordinary one of a game in which the system answers with a function; blind strategies correspond to such answers (`Spec/Interleave.lean`); the greedy search is followed by an invariant; witness for the defects |
| C31 | `computeTrace`, `runTrace` (`Model/Trace.lean`) | stages of the finite-time attractor = positions won within `n` rounds (`Spec/Trace.lean`); fails for initial inputs without answer: witness; rest as `_partial` |
| C32 | reachability loop | induction on paths |
| C33 | `XCooperativeGR1Strategy::computeWinningPositions`, `runCoop`, `runExplicitCoop` (`Model/Cooperative.lean`) | `Spec/Cooperative.lean` defines cooperative strategies on histories; fixed-point characterisation, ranking of preferred transitions (`CoopFamily`), completeness by cutting strategies at subgoals (`Reach`, `Force`); transfer to BDDs and file texts |
| C34 | `Model/ROBDD.lean` | induction on diagrams |
| C35 | explicit counterstrategy | rank argument on the rounds of C07; fails for two guarantees (goal jump): witness, positive part as `_partial` |
| C36 | `initContextLimits`, `restrictLimits`, `numbers` | numbers as cardinalities through the layout of the variables; one number is `nan` in some cases: witness, exact characterisation |
| C37 | `construct`, `initFiles` | case analysis on modes; swapped roles with `--counterStrategy`: witness |
| C38 | the same | distances as approximants of the inner fixed point = stages of `Spec/Assumptions.lean`; transfer to BDDs and texts; invariant of the reading loop for names and parts |
| C39 | the same | invariant of the loop that restricts the columns (each column can be forced from the one before, strictly shrinking measure); flag false = nothing can be restricted; transfer to BDDs and texts |
| C40 | the same | the same, and a bound for the number of rounds |
| C41 | `runInteraction` (`Model/Interaction.lean`) | each row is a run of the fixpoint on a game with some parts left out (`Game.keep`), so the verdict theorems apply |
| C42 | the same, with the game with an extra bit (`failGame`) | strategies are translated between the game with the bit and the non-strict implication; witness for the defect |
| C43 | the same | the rounds are the stages of the finite-time game of `Spec/Trace.lean`; witness for the defect |
| C44 | `runWeaken` (`Model/Weaken.lean`) | invariants of the four loops over an abstract monotone check, which is then instantiated with the realizability check |
| C45 | the same | invariant of the loop that removes literals: the context implies what is kept; witness for the last clause |
| C46 | the same | a clause is kept only if the check fails without it, and the check is monotone; witness for the loop that removes literals |
| C47 | `runInteractive` (`Model/Interactive.lean`): standard input, the strategies computed before the session, all commands | an invariant of the session loop relates the current position (a BDD) and goal to the play seen so far (`Lemmas/Interactive*`) |
| C48 | the same | the goal printed develops as required by the family of strategies; `goals_cycle` |
| C49 | the same | the letters of a set that is restricted one variable after the other (`Lemmas/InteractiveLetters`) |
| C50 | the same | as C49; witness for the numbers |
| C51 | the same | invariant as in C47; witness for other numbers than 0 and 1 |
| C52 | the same | invariant as in C47; witness for XGETINIT |
| C53 | the same | the requests are written as text in all possible ways, and the reading functions are inverted by induction on the text |
| C54 | the same, with the counterstrategy's positional merge | the rounds of the counterstrategy's fixpoint, ordered by round and guarantee, give a ranking (`Lemmas/InteractiveEnv`) |
| C55 | `fsInit` (the second reader), `newSafetySys`, `checkFS`, `runFS` (`Model/FastSlow.lean`) | the reader is simulated by the one of ordinary files; the additional condition on steps is one more safety guarantee of an ordinary specification (`exists_spec`), to which the theorems for C04 apply |
| C56 | `runFSExplicit` (`Model/FastSlow.lean`) | as C55, with the theorems on extraction for ordinary specifications |
| C57 | `parse` (the LR tables of `Parser.py` and their interpreter, `Model/StructuredParser.lean`), `tokenize`, `clean`, `flatten`, `simple`, `translateLine` (`Model/Structured.lean`) | the LR tables are checked against item sets by kernel evaluation, once; from this soundness, completeness (for every grammar) and unambiguity follow by induction; trees are related to formulas by induction |
| C58 | as C57, `addBits`, `recurse`, `comparison`, `calculation` (`Model/Structured.lean`) | the strings are the texts of formulas (`compF`); these are well-formed; the buffers are ripple-carry adders (`adder_value`), the comparisons folds over the bits |
| C59 | `readSections`, `declare`, `declareNumber`, `limitTokens`, `isPrefixLine`, `convertLine`, `printProperties`, `convert` (`Model/Structured.lean`); the specification of files is `Spec/StructuredFile.lean` | the printed file denotes a specification whose game embeds the game over integers (`Lemmas/GameEmbed.lean`: an embedding keeps winning both ways); then C24 |
| C60 | `deadlockLoop`, `hopeLoop`, `hopeStrategies`, `runLoop`, `runRows`, `computeRun`, `runInteresting` (`Model/InterestingRun.lean`) | semantic fixpoints; a property of the environment's strategies (in every position there is an input that is not excluded and that is allowed or has no answer); induction over the rounds; transfer as for C12; defects by concrete files |
| C61 | `labelText`, `stateText`, `permText`, `cstateText`, `stateJson`, `jsonListing`, `runPrinted`, `runCounterPrinted` (`Model/Printing.lean`); grammar of JSON (`Spec/Json.lean`) | the grammar is built up along the text; a reader that is complete for the grammar shows that values are unique and refutes JSON for concrete texts; for the other formats prefix-freeness of the parts |
| C62 | `mLine`, `mInit`, `parseFormulaEx`, `readBdd`, `motionAssumption`, `ctlMotion`, `checkMotion`, `runMotion` (`Model/Motion.lean`); meaning of a specification (`Spec/Motion.lean`) | invariant over the items of the file; encoding of contexts, robot and quantifiers in the layout of the table; the enforceable predecessor is that of a game in which the environment also chooses a reaction of the robot to every control, so that the results about the fixed point carry over |
| C63 | `eLine`, `eInit`, `printRec`, `printFormula`, `eReachLoop`, `preferLoop`, `estimatorBdds`, `runEstimator` (`Model/Estimator.lean`); meaning of a file and of an estimator (`Spec/Estimator.lean`) | simulation of the reader by that of ordinary files; encoding of the computation in the layout of the table; reachability loops as least fixed points; the loop over the variables as lexicographic optimisation; invariant of the recursion that writes a BDD as a formula |
| C64 | `checkRealizability`, `testValue`, `binarySearch`, `tupleLe`, `choose`, `searchLoop`, `runSearch` (`Model/Search.lean`); ranges, order and Pareto points (`Spec/Search.lean`) | well-founded induction on the size of the range; invariant of the two point lists, the number of tuples that are not covered decreases |
| C65 | `readLines`, `shrink`, `findMinimalCore`, `isRealizable` (`Model/UnrealizableCore.lean`), which uses `runMain` (C25) and `runSlugs` (C24); minimal cores (`Spec/UnrealizableCore.lean`) | the regrouped lines are a proper file that denotes the specification with fewer guarantees (`Lemmas/Regroup.lean`); induction over the lines, with monotonicity (C28) |
| C66 | `readlines`, `component`, `readBit`, `addBit`, `parsedValues`, `decodeState`, `decodeLine`, `decodeText` (`Model/Decoder.lean`), with `convert` (C59) and `runPrinted` (C61); strategies for structured specifications and their texts (`Spec/Decoded.lean`) | induction over the lines and the components of a label (`Lemmas/Decoder.lean`); by C12_reachable, all printed states are encodings; the properties of C10 and C11 are carried back along the embedding of C59 |
| C67 | `stateLine`, `successorsLine`, `readLine`, `nodeText`, `edgesText`, `graphviz` (`Model/Graphviz.lean`), with `runPrinted` (C61); the DOT text of a strategy (`Spec/Dot.lean`) | induction over the states with the dictionaries as invariant (`Lemmas/Graphviz.lean`); defects by concrete files |
| C68 | `readSlugsFile`, `writeSlugsFile`, `checkRealizability`, `trials`, `nonDifferenceCausing`, `listValues`, `resultLine`, `analyze` (`Model/StuckAt.lean`), with `convert` (C59) and `runSlugs`; games in which a variable is stuck, and the report (`Spec/StuckAt.lean`) | the lines that are read and written denote the same specification with two more constraints (`Lemmas/StuckAt.lean`), whose game is the one with a stuck variable (`Lemmas/StuckAtGame.lean`); then C59 for each file |
| C69 | `encode`, `encodeParts`, `encodeSection`, `numberVariables`, `oldValues`, `fill`, `checkGates`, `circuit`, `translate` (`Model/Aiger.lean`); circuits in the AIGER format, their text, their runs, and what it means that the output can be kept false (`Spec/Aiger.lean`) | induction over the formulas for the gates (`Lemmas/AigerEncode.lean`), the numbering of the variables and the order of the gates (`AigerSections.lean`, `AigerCircuit.lean`), induction over the rounds (`AigerValues.lean`), Mealy strategies and controllers (`AigerGame.lean`), the text (`AigerText.lean`) |
| C70 | `readSpec`, `search`, `frontier`, `inftyFile`, `inftySucc`, `inftyLeq`, `findInfty`, `firstSearch` (`Model/Resilience.lean`); the game in which some assumptions can be violated (`Spec/Resilience.lean`) | an invariant of the search for all antitone properties on graded orders (`Lemmas/Frontier.lean`), the formulas that are composed as text (`Compose.lean`, `ResilienceText.lean`, `ResilienceInfty.lean`), the order on the vectors (`ResilienceFirst.lean`), and C24 for the answers of slugs |
| C71 | `binaryEncode`, `combinations`, `selector`, `smaller`, `limitLines`, `countLines`, `mixedFile`, `moreAmbitious`, `mixedSucc`, `mixedLeq`, `findMixed`, `levelLine`, `program` (`Model/Resilience.lean`); the game with a counter of violations (`Spec/Resilience.lean`) | what the generated lines mean (`Lemmas/ResilienceLines.lean`, `ResilienceCount.lean`, `ResilienceMixed.lean`), the generated game is the game with a counter (`ResilienceGame.lean`), strategies that start anew (`GameRestart.lean`) and the pigeonhole principle on winning sets give the bound on `k` (`ResilienceTheory.lean`), the invariant of the search (`ResilienceLevels.lean`); the number of bits of the counter, which the program computes with floating-point logarithms, is any function with `k < 2 ^ bits k` |
| C72 | all of `extensionTwoDimensionalCost.hpp` over an arbitrary arithmetic of costs (`Model/TwoDimensionalCost.lean`); what a cost file denotes (`Spec/Cost.lean`) | the variables that are added and the encoding of the extended table (`Lemmas/CostLayout.lean`, `CostHelpers.lean`), the homomorphism to sets of positions (`CostHom.lean`), reading of cost files (`CostRead.lean`), the invariants of the search (`CostSound.lean`), a measure for the tuples still to be processed (`CostEnds.lean`; the sum and product of finite costs is assumed to be finite), the run as a whole (`CostRun.lean`) |
| C73 | as for C72, and the extraction of explicit strategies | all transitions that the search records obey the guarantees and lead to winning positions (`CostSound.lean`), induction over the extraction (`CostExplicit.lean`); the missing part is refuted by a concrete file (`C73_stuck`) |
| C74 | the whole program (`Model/NuSmv.lean`); the part of the language of NuSMV that is used, with its executions and linear temporal logic (`Spec/Smv.lean`) | what is read (`Lemmas/NuSmvRead.lean`), the text that is written (`NuSmvText.lean`), well-formedness (`NuSmvValid.lean`), the simulation between executions of the module and runs of the automaton in both directions (`NuSmvRun.lean`); the missing parts are refuted by concrete files |
| C75 | the lexer, the tables of the LR parser and the program (`Model/LtlParser.lean`, `Model/LtlTranslators.lean`); symbols, infix formulas, linear temporal logic and the file formats (`Spec/LtlText.lean`), the grammar (`Spec/LtlGrammar.lean`) | the LR automaton accepts exactly the language of the grammar, by invariants on its stack that are checked once for all entries of the tables (`Lemmas/LtlTables.lean`, `LtlLR.lean`), the lexer (`LtlLex.lean`), trees (`LtlTree.lean`), prefix text (`LtlCompile.lean`), conjunctions and their classification (`LtlFile.lean`), the file that is written (`LtlOutput.lean`) and the formats that are read (`LtlFormats.lean`) |
| C76 | as for C75, with the format of RATSY | as for C75 |
| C77 | `runSymbolicCoop` (`Model/SymbolicMore.lean`), from the models of the two extensions | what the written function means for an arbitrary game (`Lemmas/SymbolicMore.lean`), with the properties of the cooperative computation known from C33 |
| C78 | `runFSSymbolic` (`Model/SymbolicMore.lean`), from the models of the two extensions | as for C77, with the game with safe intermediate positions of C55 |
| C79 | `runExplicit` with `perm = true` (as for C14) | every set of preferred transitions recorded for a goal contains all safe transitions into the winning positions that fulfil the goal, for each algorithm (`Lemmas/Permissive.lean`); then the extraction lists all moves of the first set |
| C80 | `substLine`, `substFile` (`Model/Substitutor.lean`): the tokenizer, the parser (that of C57), the cleaning of the tree, the replacement and the printing, and the reading of both files | induction over the derivation of the formula: the cleaned tree has one shape per operator; the printed text of a tree lexes and derives again to a formula of the same meaning (`Lemmas/Substitutor.lean`, `Lemmas/SubstitutorMeaning.lean`) |
| C81 | `substFile` (`Model/Substitutor.lean`); `SourceDenotes`, `Shifts`, `ShiftFile` (`Spec/Substitution.lean`) | both files are read (`Lemmas/SubstitutorFile.lean`), each printed constraint says the same with shifted values (`Lemmas/SubstitutorConstraint.lean`, from C80), the printed text denotes the shifted specification (`Lemmas/SubstitutorWhole.lean`), and the shift of values is an embedding of games (`Lemmas/SubstitutorGame.lean`); then C59 |
| C82 | `createReport`, `copySpecification`, `falsifyFile` (`Model/Report.lean`, over `convert`, `runSlugs`, `runAnalyze` and `StuckAt.analyze`); `Game.ForcesFailure`, `ShowsText`, `shownLines` (`Spec/Report.lean`) | the copied text is followed line by line (`Lemmas/ReportText.lean`); the compiled file and the file with the guarantees removed are followed with their marks (`Lemmas/ReportFile.lean`), so C36 applies to them, and its numbers are carried over to the game on integer values by the embedding of C59; the rest is C59 and C68. `C82_missing_number`: the defect of C36 is visible in the report |
| C83 | `makeAProperty`, `generate`, `slugsFile`, `fuzzOnce`, `fuzz` (`Model/AisyFuzzer.lean`, over `Aiger.translate` and `runSlugs`); `Fml.Random` (`Spec/Fuzzer.lean`), `FuzzSpec` | generated texts are printed formulas of the described kind (`make_sound`) and all of them can be drawn (`make_complete`), the file is proper (`Lemmas/AisyFuzzerFile.lean`); then C69 for the circuit and C01 for the verdict of slugs; the loop by induction |
| C84 | `pickOp`, `makeAProperty`, `parts`, `generate`, `smvText`, `slugsArguments`, `fuzzOnce`, `fuzz` (`Model/SlugsFuzzer.lean`, over `fromLtlmop` and `runMain`); `Ltl.Random`, `RandomSafety`, `RandomLiveness` (`Spec/LtlFuzzer.lean`) | generated texts are printed formulas of this kind (`make_sound`, `make_complete`); their symbols and infix structure are found by induction (`lexes_formula`, `isFormula_whole`), then C75. `C84_aborts`: by C25, an argument with a slash in it that starts with a dash is refused |
| C85 | `readTable`, `encode`, `decode`, `update`, `press`, `run` (`Model/CursesSimulator.lean`), over the sessions of C49/C50; `ShownVar`, `Numbering`, `ShowsPlay`, `propNames`, `linesOf` (`Spec/Simulator.lean`) | encoding and decoding are inverse on numbered variables (`SimulatorCodec`); invariants of keys and answers by induction over the keys (`run_spec`); the answers are right by C49 and C50; the table by induction over the declarations (`readNames_spec`) |
| C86 | `benchmark` (`Model/Cinderella.lean`); `Emptied`, `Round`, `CanAdd`, `CinderellaWins` (`Spec/Cinderella.lean`), over the structured specifications of C59 | the lines are parsed symbol by symbol for all numbers (`CinderellaText`), the file denotes a specification (`benchmark_denotes`), whose game is the one of Cinderella (`realizable_iff`: winning positions are an invariant, and an invariant is winning); then C59 |
| C87 | `benchmark` (`Model/Evasion.lean`); `State`, `Step`, `Evades` (`Spec/Evasion.lean`), over the structured specifications of C59 | the constraints are trees whose rendering is parsed back for all numbers (`InfixTree`), the file denotes a specification (`benchmark_denotes`), whose game is the one of the robot and the obstacle (`realizable_iff`; the environment may count more glitches than there are, which only costs it moves); then C59. `loses_corridor` and `evades_five` show that both verdicts occur |
| C88 | `copied`, `check`, `runTests`, `tests`, `Prints` (`Model/ExampleTests.lean`), with the model of the same evaluation of lines as in C64; `Example.IsRealizable`, `Test.Right` (`Spec/ExampleTests.lean`) | the copy of a compiled file has the same content, as only empty lines are added (`copied_content`); then C59, C24 and C64, and induction on the list of tests. `exists_slugs` shows that the assumption about what slugs prints can be met |
| C89 | `pName`, `positions`, `someNext`, `firstLines`, `otherLines`, `safeLines`, `benchmark` (`Model/Factory.lean`); `State`, `Arms`, `Step`, `Move`, `Start`, `Manages` (`Spec/Factory.lean`) | the lines are read as formulas by computation with trees (`Lemmas/InfixTree.lean`), with induction for the disjunction over all tasks; then the positions of the specification's game are matched with states of the assembly line in both directions (`realizable_iff`), where additional errors do not help; then C59. `manages_two` and `loses_busy` show families of both verdicts |
| C90 | as C89 | the safety assumptions of the written file, read as in C89 (`game_safetyEnv`); the counterexample is a play of three steps for all numbers of places, tasks and errors |
| C91 | as C86, C87 and C89 | by C86, C87 and C89, slugs is right about the games, so the games are compared: Cinderella keeps the contents below those of the harder game, and the arms treat the first places as the shorter belt, pause while the belt is slower, and do more than needed (`manages_mono`) |
| C92 | as C89 | a potential: the number of missing tasks on the belt, together with the time, grows in every step if m > 2k+1, but is bounded; conversely, arms that stay at places 1 and 2 and perform missing tasks keep bounds on the missing tasks at the first three places, and `manages_mono` (C91) extends this to all belts; the same potential grows with every error if m = 2k+1 |
| C93 | as C89 | a strategy with plans: each arm works on an object in k consecutive steps from some age on (`Plan`); with each error, one of the arms keeps working on the object for one more step, and from then on works later on all objects; the invariant counts the errors that can still be absorbed; conversely (`FactoryLimit.lean`), the number of missing tasks grows with every error, and it is bounded, as only one arm at a time can work on an object |

## 3. Trusted base
* Lean's kernel; axioms `propext`, `Classical.choice`, `Quot.sound` only.
* That the Lean definitions cited as models match the C++ source lines they cite.
* CUDD meets the contract of `Model/BDD.lean`; reordering and garbage collection have no semantic effect.
* libstdc++ streams and boost::trim behave as modelled in `Model/Stream.lean`.


`#print axioms` gives a subset of these three axioms for every theorem named in `MANIFEST.json` (`vcheck` replays all modules).

### Modelled
| code | model | remarks |
|---|---|---|
| `synthesisContextBasics.cpp` (reading files, formulas), `variableManager.*`, `variableTypes.hpp` | `Model/Stream`, `Model/Parser`, `Model/Vars` | the file is a list of characters; operand evaluation order of `&` etc. is a parameter (C18) |
| `synthesisAlgorithm.cpp` | `Model/Synthesis` | |
| `tools.cpp` (`determinize`, `determinizeRandomized`) | `Model/Explicit` | the results of `rand()` are a parameter |
| `main.cpp` | `Model/CommandLine` | the table of option combinations, file names, exceptions; not the texts of the help message |
| `extensionRoboticsSemantics`, `extensionFixedPointRecycling`, `extensionBiasForAction` | `Model/Synthesis`, `Model/Variants` | |
| `extensionExtractExplicitStrategy`, `extensionPermissiveExplicitStrategy` | `Model/Explicit`, `Model/Printing` | the listing as data; its layout as text and as JSON is modelled for C61 |
| `extensionExtractSymbolicStrategy` | `Model/Symbolic` | the BDD that is written; not the DDDMP file format |
| `extensionCounterstrategy`, `extensionExtractExplicitCounterstrategy` | `Model/Counter` | as for the explicit strategy |
| `extensionAnalyzeInitialPositions` and model counting in `BFCudd` | `Model/Count`, `Model/Analyze` | exact numbers; rounding of `double` is not modelled |
| `extensionAnalyzeAssumptions` | `Model/Assumptions` | the remark "(but not in most general stategy)" is modelled without a theorem; debug files in /tmp are not modelled |
| `extensionCooperativeGR1Strategy` | `Model/Cooperative` | |
| `extensionAbstractWinningTraceGenerator` | `Model/Trace` | files with `@` in a name are excluded (an outcome of its own); the layout of the table is not modelled |
| `extensionInterleave` | `Model/Interleave` | numbers on stderr, the file in /tmp and the unused `strategyDumpingData` are not modelled |
| `extensionComputeCNFFormOfTheSpecification` | `Model/Cnf` | texts of the lines included |
| `extensionAnalyzeSafetyLivenessInteraction` | `Model/Interaction` | the layout of the table is not modelled |
| `extensionWeakenSafetyAssumptions` | `Model/Weaken` | the clauses as data; the check at the end is not compiled in release builds |
| `extensionInteractiveStrategy` | `Model/Interactive` | standard input as read by libstdc++; requests and answers as data; dot files and fixed texts are not modelled |
| `tools/StructuredSlugsParser/compiler.py`, `Parser.py` | `Model/Structured`, `Model/StructuredParser` | all of it, except errors on opening and decoding files, digits other than 0-9, and what has been printed when an exception is raised |
| `extensionComputeInterestingRunOfTheSystem` | `Model/InterestingRun` | files with `@` in a name are excluded (an outcome of its own); the layout of the table and the debug files in /tmp are not modelled; the results of `rand()` and of reads outside of vectors are parameters |
| texts of `extensionExtractExplicitStrategy`, `extensionPermissiveExplicitStrategy`, `extensionExtractExplicitCounterstrategy` | `Model/Printing` | characters instead of bytes |
| `extensionNondeterministicMotion`, `readBDDFromFile` | `Model/Motion` | alone and with the robotics semantics; BDD files are represented by the predicates they store; not with `--interactiveStrategy` |
| `extensionIncompleteInformationEstimatorSynthesis` | `Model/Estimator` | up to the end of the standard output; not the analysis of names with `@` that follows on the error output |
| `tools/binaryRealizabilitySearch.py`, `tools/multiDimensionalRealizabilitySearch.py` | `Model/Search` | the script is a function from values to its lines and exit code; not the reading of arguments |
| `tools/findMinimalUnrealizableCore.py` | whole tool (`Model/UnrealizableCore.lean`, C65); not the lines printed while it runs, not a file name without a dot |
| `tools/analyzeStuckAtConstant.py` | `Model/StuckAt.lean` (C68) | Python 2; `stderr`, what is printed before an exception, and other users of the files in /tmp are not modelled |
| `tools/translateSafetySlugsSpecToSyntCompAIGFormat.py` | `Model/Aiger.lean` (C69) | Python 2; what is printed before an exception and the limit on recursion are not modelled |
| `tools/makeNuSMVInstanceToTestAutomatonFileAgainstSlugsSpecification.py` | `Model/NuSmv.lean` (C74) | Python 2; what has been written before an exception and the limit on recursion are not modelled; NuSMV itself is specified in `Spec/Smv.lean` |
| `tools/parser.py`, `tools/translateFromLTLMopLTLFormatToSlugsFormat.py`, `tools/translateFromRatsyFormatToSlugsFormat.py` | `Model/LtlParser.lean` (tables of the parser, its loop), `Model/LtlTranslators.lean` (C75, C76) | Python 2; what has been printed before an exception, the limit on recursion and errors on opening files are not modelled |
| `tools/createSpecificationReport.py` | `Model/Report.lean` (C82) | Python 2; the HTML around the copied texts, `stderr`, temporary files shared with other processes, and the report after an error are not modelled; the texts that slugs prints are represented by the numbers and verdicts in them |
| `tools/fuzzSafetySpecsAgainstAisy.py` | `Model/AisyFuzzer.lean` (C83) | Python 2; random numbers are read from an arbitrary list and the depth of recursion is bounded by an arbitrary number; `aigtoaig`, `abc` and the other solver are one function from circuits to exit codes, slugs is a function from files to outcomes (`runSlugs` in C83_no_false_alarm); temporary files shared with other processes are not modelled |
| `tools/slugsFuzzer.py` | `Model/SlugsFuzzer.lean` (C84) | Python 2; random numbers as for the other fuzzer; the arguments of the user are words without meaning for the shell; the part after the call of slugs is a parameter (it is never reached) |
| `tools/cursesSimulator.py` | `Model/CursesSimulator.lean` (C85) | Python 2; the keys, and whether the terminal is large enough, are inputs; requests and answers are commands with their arguments, not lines of text (the texts of two whole sessions are in `sim_session`, `sim_session2`); drawing, the help texts and what goes to stderr are not modelled; the dictionaries of bits are lists of pairs. If a digit is typed before the table has been drawn for the first time, or after the help texts hid it, the model ends with `crashed`, like the program |
| `tools/testSomeExamples.py` | `Model/ExampleTests.lean` (C88) | not the search for the folder with the examples, the names of files, temporary files and the texts of messages |
| `examples/benchmark_generators/factory_assembly_line.py` | `Model/Factory.lean` (C89) | not the names of files, the options and the calls of other programs |
| `examples/benchmark_generators/cinderella_stepmother.py` | `Model/Cinderella.lean` (C86) | Python 2; the text of the file; the configurations, the names of files and the calls of the compiler and of other tools are not modelled |
| `examples/benchmark_generators/moving_obstacle_evasion.py` | `Model/Evasion.lean` (C87) | Python 2; the text of the file; the configurations, the names of files and the calls of the compiler and of other tools are not modelled |
| `tools/StructuredSlugsParser/integerVariableSubstitutor.py` | `Model/Substitutor.lean` (C80, C81) | Python 2; what is printed before an exception, `stderr`, and errors on opening files are not modelled |
| `tools/kResilientRealizabilityChecker.py` | `Model/Resilience.lean` (C70, C71) | Python 2; the floating-point computation of the number of bits is a parameter; what is printed on `stderr`, the measured times and the option to write the optimal specifications are not modelled |
| `tools/explicitImplementationIntegerDecoder.py` | `Model/Decoder.lean` (C66) |
| `tools/explicitStrategyToGraphviz.py` | `Model/Graphviz.lean` (C67) |
| `extensionTwoDimensionalCost` | `Model/TwoDimensionalCost` (C72, C73) | alone, with the robotics semantics, and with explicit strategies; not with `--symbolicStrategy` or `--interactiveStrategy`; the arithmetic of `double` and the reading of numbers are parameters; opening the cost file and what is printed on `stderr` are not modelled |
| `extensionIROSfastslow` | `Model/FastSlow`, `Model/SymbolicMore` (C78) | alone, with the robotics semantics, and with explicit and symbolic strategies; not with `--interactiveStrategy` |

### Not modelled
Memory exhaustion; CUDD itself (only its contract, C34); reordering; console output other than what is said above; file system
errors while reading or writing (uncaught `std::runtime_error`); the Python tools, except where a property says so; the extensions not listed above
(among them `extensionOptimisticRecovery`, which no option of slugs enables).

### Defects found (each proved by a concrete file, or by an exact characterisation)
* C20: lines such as `$ 0` have undefined behaviour.
* C16: the explicit counterstrategy has states without a move if there are no outputs.
* C35: the explicit counterstrategy may lose if there are two liveness guarantees.
* C36: a number is printed as `nan`.
* C37: with `--counterStrategy`, the roles of the file names are swapped.
* C29: lines about liveness assumptions leave out all safety assumptions as well; and nothing is added when the last assumption is left out.
* C31: the environment's trace is not found if some initial input has no allowed initial output.
* C30: the last output is always listed; an uninitialised variable is read if no output can be set early.
* C42: in the robotics semantics, the line about the non-strict implication can be missing, as the extra bit is not initialised.
* C43: as C31, the environment's number of rounds can be too small.
* C45: when literals are removed from the printed clauses, the clauses still to come are replaced by copies of the current one and missing literals are taken for negated ones; the last clause can become empty.
* C46: for the same reason, a printed clause can be superfluous.
* C50: the numbers printed by XSTRATEGYTRANSITION can be wrong, as `<` on BDDs is strict.
* C51: MOVE with other numbers than 0 and 1 leaves the position afterwards open; the next step can violate the safety guarantees.
* C52: XGETINIT prints the goal 0, but does not reset the goal.
* C53: CHECKTRANS has undefined behaviour for unrealizable specifications with more guarantees than assumptions; the rest of a refused MOVE is taken for a command; ill-formed numbers make the program wait forever.
* C57: the structured slugs compiler does not come to an end if a variable with a negative lower bound is compared; the documented operators `^`, `-` and `*` are refused.
* C59: in structured specifications, a constraint that starts with a bracket `[` is taken for the header of a section and, if another header or the end of the file follows, dropped without notice; text before the first header is ignored without notice.
* C60: the marks in the run refer to another step than the one shown; `Sys.Loses` can be printed for realizable files; vectors are read outside of their bounds whenever a table is printed.
* C61: names are printed without escaping with `--jsonOutput`, so that the text is not JSON, or contains other names, if a name contains a quotation mark or a backslash.
* C62: with `--nonDeterministicMotion`, an initial assumption about the motion state makes a specification realizable if some motion state violates it; safety assumptions about the next motion state lead to wrong verdicts; other outputs are not chosen by anyone and lead to internal errors; region names are accepted with and without prime in all sections.
* C64: `multiDimensionalRealizabilitySearch.py` does not end if the script has no result for the tuple that is tried.
* C65: `findMinimalUnrealizableCore.py` calls `slugs` with an option that `slugs` does not know, and fails for every file with a safety or liveness guarantee.
* C66: `explicitImplementationIntegerDecoder.py` fails on strategies without visible variables; with `--simpleRecovery`, integers out of their bounds are listed.
* C67: `explicitStrategyToGraphviz.py` fails on strategies with a state without successors and on strategies without variables; a colon in a name makes it print wrong values.
* C69: `translateSafetySlugsSpecToSyntCompAIGFormat.py` does not rename inputs whose names start with `controllable_`, so that the controller of the circuit chooses their values and the verdict may change (`C69_controllable_input`); formulas with two blanks in a row, which slugs accepts, lead to an exception (`C69_two_blanks`).
* C73: the transitions that the search for a cost-optimal strategy records are not restricted to the states from which they cover all moves of the environment, so that the explicit strategy mixes them up: it does not answer every move, and has runs that satisfy the assumptions and never reach the goal (`C73_stuck`, without any costs).
* C74: `makeNuSMVInstanceToTestAutomatonFileAgainstSlugsSpecification.py` follows only the first successor for an input, so that an automaton with a bad run can pass (`C74_several_successors`). It does not check whether there is a state for every allowed initial input (`C74_initial_not_checked`). It fails for exclusive or and without variables (`C74_xor`, `C74_no_variables`), and writes files that NuSMV rejects for names of integer bits and for empty strategies (`C74_numbers`, `C74_no_states`).
* C80: `integerVariableSubstitutor.py` refuses numbers in brackets (`C80_brackets_refused`), although a comment in it says that they are fine, and so refuses its own output (`C80_own_output_refused`).
* C82: the report of `createSpecificationReport.py` shows the missing numbers of C36 (`C82_missing_number`), and comments that start with `## Variable limits` change its numbers or prevent the report (`C82_mark_miscounted`, `C82_mark_no_report`).
* C84: `slugsFuzzer.py` never tests anything, because its command line for slugs has no blank between `--explicitStrategy` and the name of the file (`C84_aborts`).
* C85: when an arrow key is pressed while a value is outside of its bounds, `cursesSimulator.py` replaces the value and removes the flag without asking slugs again; the column that is left behind need not be allowed (`C85_play_violated`).
* C75: `translateFromLTLMopLTLFormatToSlugsFormat.py` translates `x = 0` like `x = 1` (`C75_zero`). The prefix of a name (`e.`, `s.`) is cut off without looking at it.
* C76: `translateFromRatsyFormatToSlugsFormat.py` takes a variable whose name starts with `next` for the next value of another one (`C76_next_names`), and drops line breaks between words (`C76_line_breaks`).
