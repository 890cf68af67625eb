import Verif.Model.Basic
import Verif.Model.LinkedList
import Verif.Spec.SlotMachine
import Verif.Spec.LinkedList
import Verif.Lemmas.LinkedList
import Verif.Lemmas.LinkedListSweep
import Verif.Lemmas.LinkedListMerge
import Verif.Props.LinkedList
import Verif.Props.LinkedListSweeps
import Verif.Props.Position
import Verif.Props.Time
import Verif.Props.System
import Verif.Props.Random
import Verif.Props.CircExact
import Verif.Props.CircFirstOrder
import Verif.Props.Target
import Verif.Props.Forces
import Verif.Props.Agents
import Verif.Props.Analysis
import Verif.Props.AnalysisStats
import Verif.Props.AnalysisVec
import Verif.Props.AnalysisProcess
import Verif.Props.AnalysisExport
import Verif.Props.Error
import Verif.Props.TypesText
import Verif.Props.Arguments
import Verif.Props.Setup
import Verif.Props.Dataset
import Verif.Props.DatasetHash
import Verif.Props.FileNames
import Verif.Props.AnalysisWords
import Verif.Props.PairDeletion
import Verif.Props.Simulation
import Verif.Props.ForceBalance
import Verif.Props.StepLength
import Verif.Props.InteractingRun
import Verif.Props.Constructors
import Verif.Props.AnalyzeOutput
import Verif.Props.SummaryTable
import Verif.Props.EndToEnd
import Verif.Props.EndToEndRows
import Verif.Props.EndToEndPaths
import Verif.Props.EndToEndDemo
import Verif.Model.Binary
import Verif.Props.DoubleClock
import Verif.Props.DoubleExpClock
import Verif.Props.DoubleCylinder
import Verif.Model.Derived
import Verif.Props.Derived
import Verif.Props.DoubleBox
import Verif.Props.DoubleHistogram
import Verif.Props.SingleSearch
import Verif.Props.Ensembles
import Verif.Props.FreshEnsembles
import Verif.Props.ReportedTime
import Verif.Props.ExpEnsembles
import Verif.Props.Seeds
import Verif.Props.Laws
import Verif.Props.AgentLaws
import Verif.Props.MoveLaws
import Verif.Props.Macro
import Verif.Props.PosOps
import Verif.Props.Walls
import Verif.Props.SearchLaw
import Verif.Props.Placement
import Verif.Props.Help
import Verif.Props.HelpTexts
import Verif.Props.Headers
import Verif.Props.NewAnalysis
import Verif.Props.Reading
import Verif.Props.Windows
import Verif.Props.Layout
import Verif.Props.Generator
import Verif.Props.Gaussian
import Verif.Lemmas.SpecialNumbers
import Verif.Props.SafeRuns
import Verif.Spec.Euclid
import Verif.Lemmas.DoubleNorm
import Verif.Lemmas.BallMirror
import Verif.Props.DoubleBall
import Verif.Lemmas.SafeSearches
import Verif.Props.DoubleNormal
import Verif.Props.DoubleSearch
import Verif.Props.BoundaryAgreement
import Verif.Props.CrashRun
import Verif.Props.FileOrder
import Verif.Props.Accuracy
import Verif.Props.BoundedSearch
import Verif.Props.ListProgram
import Verif.Props.Pruned
import Verif.Props.PrunedLaw
import Verif.Props.AnalysisDisk
import Verif.Lemmas.Queue
import Verif.Lemmas.QueueLaw
import Verif.Props.SideBySide
import Verif.Lemmas.BallSweep
import Verif.Lemmas.Words
import Verif.Lemmas.BallWord
import Verif.Lemmas.MergeTurns
import Verif.Lemmas.MergeFinds
import Verif.Props.MergeSearch
import Verif.Spec.MergeLaw
import Verif.Lemmas.DrawChain
import Verif.Lemmas.MergeChain
import Verif.Lemmas.MergeSimulates
import Verif.Props.MergeLaw
import Verif.Model.LargeN
import Verif.Spec.LargeNLaw
import Verif.Lemmas.LargeNLaw
import Verif.Props.LargeNLaw
import Verif.Spec.PushLaw
import Verif.Lemmas.PushChain
import Verif.Lemmas.PushSimulates
import Verif.Props.PushLaw
import Verif.Model.BoundaryTests
import Verif.Props.BoundaryTests
import Verif.Model.RandomTests
import Verif.Spec.RandomTests
import Verif.Props.RandomTests
import Verif.Spec.NoMerging
import Verif.Lemmas.NoMerging
import Verif.Props.NoMerging
import Verif.Props.MoreSearchers
import Verif.Props.ListLaw
import Verif.Spec.TurnRace
import Verif.Lemmas.TurnRace
import Verif.Props.TurnRace
import Verif.Lemmas.PushReach
import Verif.Lemmas.MergeReach
import Verif.Props.PushReach
import Verif.Props.StepReach
import Verif.Props.SafePrograms
import Verif.Props.ProgramsDouble
import Verif.Props.MeanTurns
import Verif.Props.MeanTurnsLargeN
import Verif.Props.Units
import Verif.Spec.ExpTurns
import Verif.Props.ExpLinesDouble
import Verif.Spec.Symmetry
import Verif.Lemmas.Symmetry
import Verif.Lemmas.Shift
import Verif.Props.Symmetry
import Verif.Spec.SymmetryCrowds
import Verif.Lemmas.SymmetryCrowds
import Verif.Props.SymmetryCrowds
import Verif.Spec.LargerTarget
import Verif.Lemmas.LargerTarget
import Verif.Props.LargerTarget
import Verif.Spec.TimeLimit
import Verif.Lemmas.TimeLimit
import Verif.Props.TimeLimit
