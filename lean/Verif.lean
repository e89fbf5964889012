import Verif.Basic
import Verif.Potential
import Verif.PotentialLemmas
import Verif.Props.Potential
import Verif.Props.Heap
import Verif.Props.Variable
import Verif.Props.Lists
import Verif.Props.Graph
import Verif.Props.Triangulate
import Verif.Props.Tree
import Verif.Props.Inference
import Verif.Props.Tokens
import Verif.Props.DataFile
import Verif.Props.Errors
import Verif.Props.Sampling
import Verif.Props.EmLoop
import Verif.Props.Series
import Verif.Props.NetTable
import Verif.Props.Dynamic
import Verif.Props.Smoothing
import Verif.Props.Learn
import Verif.Props.Expect
import Verif.Props.Rounds
import Verif.Props.Continue
import Verif.Props.Ascent
import Verif.Props.Read
import Verif.Props.Write
import Verif.Props.Joint
import Verif.Props.Generate
import Verif.Spec.Hugin
import Verif.HuginLex
import Verif.HuginLexLemmas
import Verif.HuginLayout
import Verif.Props.HuginLex
import Verif.HuginParse
import Verif.Spec.HuginNet
import Verif.HuginTables
import Verif.HuginParseLemmas
import Verif.HuginNodes
import Verif.HuginPots
import Verif.HuginInput
import Verif.HuginKeep
import Verif.Props.HuginParse
import Verif.WriteModel
import Verif.WriteLemmas
import Verif.Props.WriteModel
import Verif.WriteLayout
import Verif.WriteText
import Verif.WriteTables
import Verif.WriteAll
import Verif.RoundTrip
import Verif.RoundTripTables
import Verif.Props.RoundTrip
import Verif.ReadAgain
import Verif.Props.ReadAgain
import Verif.Spec.Question
import Verif.Named
import Verif.QuestionLemmas
import Verif.Props.Question
import Verif.Spec.Lines
import Verif.Programs
import Verif.ProgramsLemmas
import Verif.Spec.Records
import Verif.ProgramsMass
import Verif.ProgramsConvert
import Verif.Props.Programs
import Verif.Props.Records
import Verif.Props.Convert
import Verif.Spec.Story
import Verif.StoryLemmas
import Verif.Whole
import Verif.Props.Whole
import Verif.Spec.Accept
import Verif.HuginAccept
import Verif.HuginUnique
import Verif.Props.Accept
import Verif.Spec.TreeMemory
import Verif.TreeMemory
import Verif.TreeMemoryLemmas
import Verif.TreeMemorySteps
import Verif.Props.TreeMemory
import Verif.SepsetMemory
import Verif.SepsetMemoryLemmas
import Verif.Props.SepsetMemory
import Verif.Spec.Sampled
import Verif.Sample
import Verif.SampleLemmas
import Verif.Props.Sample
import Verif.Spec.Trained
import Verif.Train
import Verif.TrainLemmas
import Verif.TrainFiles
import Verif.Props.Train
import Verif.Spec.Report
import Verif.Reports
import Verif.ReportsLemmas
import Verif.JointTextLemmas
import Verif.Props.Reports
import Verif.Props.JointText
import Verif.Spec.Benchmark
import Verif.Benchmark
import Verif.BenchmarkLemmas
import Verif.Props.AnyOrder
import Verif.Props.Impossible
import Verif.Props.Benchmark
import Verif.Spec.VariableMemory
import Verif.VariableMemory
import Verif.VariableMemoryLemmas
import Verif.Props.VariableMemory
import Verif.Spec.Scripts
import Verif.Scripts
import Verif.ScriptsLemmas
import Verif.Props.Scripts
import Verif.Spec.Mlss
import Verif.Mlss
import Verif.MlssLemmas
import Verif.Props.Mlss
import Verif.Spec.Rounding
import Verif.AnyNumbers
import Verif.AnyModel
import Verif.AnyBuild
import Verif.AnyDynamic
import Verif.Props.Rounding
import Verif.PotentialInt
import Verif.PotentialIntLemmas
import Verif.Props.PotentialInt
import Verif.Props.AnyArithmetic
import Verif.TriangulateInt
import Verif.TriangulateIntLemmas
import Verif.Props.TriangulateInt
import Verif.Spec.PotentialMemory
import Verif.PotentialMemory
import Verif.PotentialMemoryLemmas
import Verif.Props.PotentialMemory
import Verif.Props.ProgramsLinks
import Verif.Props.Accuracy
import Verif.MassAccuracy
import Verif.MassInference
import Verif.Props.MassAccuracy
import Verif.Spec.SeriesMemory
import Verif.SeriesMemory
import Verif.SeriesMemoryLemmas
import Verif.SeriesMemoryRead
import Verif.SeriesMemoryWorld
import Verif.Props.SeriesMemory
import Verif.Spec.DataMemory
import Verif.DataMemory
import Verif.DataMemoryLemmas
import Verif.DataMemoryClose
import Verif.DataMemoryRun
import Verif.DataMemoryAnalyse
import Verif.DataMemoryLines
import Verif.DataMemoryFile
import Verif.DataMemorySafe
import Verif.Props.DataMemory
import Verif.Spec.GraphMemory
import Verif.GraphMemory
import Verif.GraphMemoryLemmas
import Verif.GraphMemoryChange
import Verif.GraphMemoryWorld
import Verif.Props.GraphMemory
import Verif.Spec.HeapMemory
import Verif.HeapMemory
import Verif.HeapMemoryLemmas
import Verif.HeapMemoryOps
import Verif.Props.HeapMemory
import Verif.Spec.CliqueMemory
import Verif.CliqueMemory
import Verif.CliqueMemoryLemmas
import Verif.Props.CliqueMemory
import Verif.Spec.InferMemory
import Verif.InferMemory
import Verif.InferMemoryLemmas
import Verif.Props.InferMemory
import Verif.HistoryMemory
import Verif.HistoryMemoryLemmas
import Verif.Spec.HistoryMemory
import Verif.Props.HistoryMemory
import Verif.StepMemory
import Verif.Spec.StepMemory
import Verif.Props.StepMemory
import Verif.FilterMemory
import Verif.Spec.FilterMemory
import Verif.FilterMemoryLemmas
import Verif.Props.FilterMemory
import Verif.LikelihoodMemory
import Verif.Spec.LikelihoodMemory
import Verif.LikelihoodMemoryLemmas
import Verif.Props.LikelihoodMemory
import Verif.SmoothMemory
import Verif.Spec.SmoothMemory
import Verif.SmoothMemoryLemmas
import Verif.Props.SmoothMemory
