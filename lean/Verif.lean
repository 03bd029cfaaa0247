import Verif.Props.Core
import Verif.Props.Reader
import Verif.Lemmas.Hom
import Verif.Lemmas.Layout
import Verif.Lemmas.Table
import Verif.Lemmas.Init
import Verif.Lemmas.TextGame
import Verif.Lemmas.Order
import Verif.Props.TextToVerdict
import Verif.Lemmas.Determinize
import Verif.Lemmas.Explicit
import Verif.Lemmas.ExplicitLoop
import Verif.Lemmas.ExplicitHom
import Verif.Lemmas.ExplicitSpec
import Verif.Lemmas.ExplicitFuel
import Verif.Props.Explicit
import Verif.Spec.Symbolic
import Verif.Model.Symbolic
import Verif.Model.Variants
import Verif.Lemmas.Checked
import Verif.Lemmas.Symbolic
import Verif.Lemmas.Recycling
import Verif.Lemmas.Bias
import Verif.Props.Symbolic
import Verif.Props.Variants
import Verif.Spec.Counter
import Verif.Model.Counter
import Verif.Lemmas.Counter
import Verif.Lemmas.CounterLoop
import Verif.Lemmas.CounterMain
import Verif.Lemmas.CounterSpec
import Verif.Lemmas.CounterHom
import Verif.Lemmas.CounterText
import Verif.Props.Counterstrategy
import Verif.Spec.Relax
import Verif.Props.Monotone
import Verif.Spec.Count
import Verif.Model.Count
import Verif.Lemmas.Count
import Verif.Props.Count
import Verif.Spec.Analyze
import Verif.Model.Analyze
import Verif.Lemmas.Analyze
import Verif.Props.Analyze
import Verif.Spec.CommandLine
import Verif.Model.CommandLine
import Verif.Lemmas.CommandLine
import Verif.Props.CommandLine
import Verif.Spec.Cooperative
import Verif.Model.Cooperative
import Verif.Lemmas.CoopFix
import Verif.Lemmas.CoopLoop
import Verif.Lemmas.CoopSound
import Verif.Lemmas.CoopComplete
import Verif.Lemmas.CoopHom
import Verif.Props.Cooperative
import Verif.Spec.Assumptions
import Verif.Model.Assumptions
import Verif.Lemmas.Distances
import Verif.Lemmas.AssumptionsHom
import Verif.Lemmas.Assumptions
import Verif.Props.Assumptions
import Verif.Spec.Trace
import Verif.Model.Trace
import Verif.Lemmas.Trace
import Verif.Lemmas.TraceText
import Verif.Props.Trace
import Verif.Spec.Interleave
import Verif.Model.Interleave
import Verif.Lemmas.Interleave
import Verif.Lemmas.InterleaveText
import Verif.Props.Interleave
import Verif.Spec.Cnf
import Verif.Model.Cnf
import Verif.Lemmas.Cnf
import Verif.Lemmas.CnfText
import Verif.Props.Cnf
import Verif.Spec.Interaction
import Verif.Model.Interaction
import Verif.Lemmas.Interaction
import Verif.Lemmas.InteractionText
import Verif.Props.Interaction
import Verif.Spec.Weaken
import Verif.Model.Weaken
import Verif.Lemmas.Weaken
import Verif.Lemmas.WeakenText
import Verif.Props.Weaken
import Verif.Spec.Interactive
import Verif.Model.Interactive
import Verif.Lemmas.InteractiveHom
import Verif.Lemmas.Interactive
import Verif.Lemmas.InteractiveVars
import Verif.Lemmas.InteractiveLetters
import Verif.Lemmas.InteractiveExec
import Verif.Lemmas.InteractiveMoves
import Verif.Lemmas.InteractiveAnswers
import Verif.Lemmas.InteractiveEnv
import Verif.Lemmas.InteractiveSession
import Verif.Lemmas.InteractiveText
import Verif.Lemmas.InteractivePlay
import Verif.Lemmas.InteractiveRequests
import Verif.Props.Interactive
import Verif.Spec.FastSlow
import Verif.Model.FastSlow
import Verif.Lemmas.FastSlowInit
import Verif.Lemmas.FastSlow
import Verif.Props.FastSlow
import Verif.Spec.Structured
import Verif.Spec.StructuredGrammar
import Verif.Model.StructuredParser
import Verif.Model.Structured
import Verif.Lemmas.StructuredTables
import Verif.Lemmas.StructuredLR
import Verif.Lemmas.StructuredLex
import Verif.Lemmas.StructuredTree
import Verif.Lemmas.StructuredSound
import Verif.Lemmas.StructuredNumbers
import Verif.Lemmas.StructuredCompile
import Verif.Lemmas.StructuredMeaning
import Verif.Lemmas.StructuredEnds
import Verif.Props.StructuredFormulas
import Verif.Spec.StructuredFile
import Verif.Lemmas.GameEmbed
import Verif.Lemmas.StructuredPrefix
import Verif.Lemmas.StructuredEncode
import Verif.Lemmas.StructuredGame
import Verif.Lemmas.StructuredLines
import Verif.Lemmas.StructuredOutput
import Verif.Props.StructuredFiles
import Verif.Spec.InterestingRun
import Verif.Model.InterestingRun
import Verif.Lemmas.InterestingRun
import Verif.Lemmas.InterestingRunText
import Verif.Props.InterestingRun
import Verif.Spec.Json
import Verif.Model.Printing
import Verif.Lemmas.Json
import Verif.Lemmas.Printing
import Verif.Props.Printing
import Verif.Spec.Motion
import Verif.Model.Motion
import Verif.Lemmas.Motion
import Verif.Lemmas.MotionParse
import Verif.Lemmas.MotionTable
import Verif.Lemmas.MotionInit
import Verif.Lemmas.MotionText
import Verif.Props.Motion
import Verif.Spec.Estimator
import Verif.Model.Estimator
import Verif.Lemmas.EstimatorInit
import Verif.Lemmas.EstimatorPrint
import Verif.Lemmas.Estimator
import Verif.Lemmas.EstimatorText
import Verif.Props.Estimator
import Verif.Spec.Search
import Verif.Model.Search
import Verif.Props.Search
import Verif.Spec.UnrealizableCore
import Verif.Model.UnrealizableCore
import Verif.Lemmas.Regroup
import Verif.Props.UnrealizableCore
import Verif.Spec.Decoded
import Verif.Model.Decoder
import Verif.Lemmas.Decoder
import Verif.Props.Decoder
import Verif.Spec.Dot
import Verif.Model.Graphviz
import Verif.Lemmas.Graphviz
import Verif.Props.Graphviz
import Verif.Spec.StuckAt
import Verif.Model.StuckAt
import Verif.Lemmas.StuckAt
import Verif.Lemmas.StuckAtGame
import Verif.Lemmas.StuckAtReport
import Verif.Props.StuckAt
import Verif.Spec.Aiger
import Verif.Model.Aiger
import Verif.Lemmas.AigerEncode
import Verif.Lemmas.AigerRun
import Verif.Lemmas.AigerGame
import Verif.Lemmas.AigerSections
import Verif.Lemmas.AigerCircuit
import Verif.Lemmas.AigerValues
import Verif.Lemmas.AigerText
import Verif.Props.Aiger
import Verif.Spec.Resilience
import Verif.Model.Resilience
import Verif.Lemmas.Frontier
import Verif.Lemmas.Compose
import Verif.Lemmas.ResilienceText
import Verif.Lemmas.ResilienceInfty
import Verif.Lemmas.ResilienceFirst
import Verif.Props.Resilience
import Verif.Lemmas.GameRestart
import Verif.Lemmas.ResilienceLines
import Verif.Lemmas.ResilienceCount
import Verif.Lemmas.ResilienceMixed
import Verif.Lemmas.ResilienceGame
import Verif.Lemmas.ResilienceTheory
import Verif.Lemmas.ResilienceLevels
import Verif.Props.ResilienceMixed
import Verif.Model.TwoDimensionalCost
import Verif.Spec.Cost
import Verif.Lemmas.CostLayout
import Verif.Lemmas.CostHelpers
import Verif.Lemmas.CostHom
import Verif.Lemmas.CostSound
import Verif.Lemmas.CostExplicit
import Verif.Lemmas.CostRead
import Verif.Lemmas.CostRun
import Verif.Props.TwoDimensionalCost
import Verif.Lemmas.CostEnds
import Verif.Spec.Smv
import Verif.Model.NuSmv
import Verif.Lemmas.NuSmvRead
import Verif.Lemmas.NuSmvText
import Verif.Lemmas.NuSmvRun
import Verif.Lemmas.NuSmvValid
import Verif.Props.NuSmv
import Verif.Spec.LtlText
import Verif.Spec.LtlGrammar
import Verif.Model.LtlParser
import Verif.Model.LtlTranslators
import Verif.Lemmas.LtlTables
import Verif.Lemmas.LtlLR
import Verif.Lemmas.LtlLex
import Verif.Lemmas.LtlTree
import Verif.Lemmas.LtlCompile
import Verif.Lemmas.LtlFile
import Verif.Lemmas.LtlOutput
import Verif.Lemmas.LtlFormats
import Verif.Props.LtlTranslators
import Verif.Model.SymbolicMore
import Verif.Lemmas.SymbolicMore
import Verif.Props.SymbolicMore
import Verif.Lemmas.Permissive
import Verif.Props.Permissive
import Verif.Spec.Substitution
import Verif.Model.Substitutor
import Verif.Lemmas.Substitutor
import Verif.Lemmas.SubstitutorMeaning
import Verif.Props.Substitutor
import Verif.Lemmas.SubstitutorSolid
import Verif.Lemmas.SubstitutorGame
import Verif.Lemmas.SubstitutorFile
import Verif.Lemmas.SubstitutorSpec
import Verif.Lemmas.SubstitutorConstraint
import Verif.Lemmas.SubstitutorWhole
import Verif.Props.SubstitutorFiles
import Verif.Spec.Report
import Verif.Model.Report
import Verif.Lemmas.ReportText
import Verif.Lemmas.ReportFile
import Verif.Props.Report
import Verif.Spec.Fuzzer
import Verif.Model.AisyFuzzer
import Verif.Lemmas.AisyFuzzer
import Verif.Lemmas.AisyFuzzerFile
import Verif.Props.AisyFuzzer
import Verif.Spec.LtlFuzzer
import Verif.Model.SlugsFuzzer
import Verif.Lemmas.SlugsFuzzer
import Verif.Lemmas.SlugsFuzzerFile
import Verif.Props.SlugsFuzzer
import Verif.Spec.Simulator
import Verif.Model.CursesSimulator
import Verif.Lemmas.Simulator
import Verif.Lemmas.SimulatorCodec
import Verif.Lemmas.SimulatorPlay
import Verif.Lemmas.SimulatorUpdate
import Verif.Lemmas.SimulatorRun
import Verif.Lemmas.SimulatorTable
import Verif.Lemmas.SimulatorKeys
import Verif.Props.Simulator
import Verif.Spec.Cinderella
import Verif.Model.Cinderella
import Verif.Lemmas.CinderellaText
import Verif.Lemmas.CinderellaFile
import Verif.Lemmas.CinderellaGame
import Verif.Props.Cinderella
import Verif.Spec.Evasion
import Verif.Model.Evasion
import Verif.Lemmas.InfixTree
import Verif.Lemmas.EvasionFile
import Verif.Lemmas.EvasionGame
import Verif.Props.Evasion
import Verif.Spec.ExampleTests
import Verif.Model.ExampleTests
import Verif.Props.ExampleTests
import Verif.Spec.Factory
import Verif.Model.Factory
import Verif.Lemmas.FactoryFile
import Verif.Lemmas.FactorySpec
import Verif.Lemmas.FactoryGame
import Verif.Props.Factory
import Verif.Props.FactoryPush
import Verif.Props.BenchmarkMonotone
import Verif.Props.FactoryBusy
import Verif.Props.FactoryErrors
import Verif.Props.FactoryLimit
