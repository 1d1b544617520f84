import Verif.Properties.TypeFit
import Verif.Properties.Writer
import Verif.Properties.Reader
import Verif.Properties.ExtSort
import Verif.Properties.Sampler
import Verif.Properties.SideOps
import Verif.Properties.Task
import Verif.Properties.TaskWitness
import Verif.Properties.Pairs
import Verif.Properties.PairsWitness
import Verif.Properties.Score
import Verif.Properties.Jobs
import Verif.Properties.Distances
import Verif.Properties.Features
import Verif.Properties.EndToEnd
import Verif.Properties.Analyze
import Verif.Properties.AnalyzeFile
import Verif.Properties.DTW
import Verif.Properties.Metrics
import Verif.Properties.UTW
import Verif.Properties.Lookup
import Verif.Properties.Tree
import Verif.Properties.Database
import Verif.Properties.TaskTotal
import Verif.Properties.FromFile
import Verif.Properties.Convert
import Verif.Properties.Verify
import Verif.Properties.Items
import Verif.Properties.NbLevels
import Verif.Properties.SamplerProb
import Verif.Properties.H5IO
import Verif.Properties.TreeHeap
import Verif.Properties.CommandLine
import Verif.Properties.Distance
import Verif.Properties.Script
import Verif.Properties.Names
import Verif.Properties.Run
import Verif.Properties.Pipeline
import Verif.Properties.Generate
import Verif.Properties.Threshold
import Verif.Properties.Stats
import Verif.Properties.TaskObject
import Verif.Properties.ExampleDistances
import Verif.Properties.Plain
import Verif.Properties.Lines
import Verif.Properties.GenerateThreshold
import Verif.Properties.Progress
import Verif.Properties.Connector
import Verif.Properties.Bare
import Verif.Properties.RegInfo
import Verif.Properties.SamplerFloat
import Verif.Properties.ResultFile
import Verif.Properties.FullRun
import Verif.Properties.LinesThreshold
import Verif.Properties.ItemsThreshold
import Verif.Properties.Lost
import Verif.Properties.Never
import Verif.Properties.RegNames
import Verif.Properties.ItemText
import Verif.Properties.GeneratedText
import Verif.Properties.Removed
import Verif.Properties.EveryText
import Verif.Properties.TextTask
import Verif.Properties.ItemText2
import Verif.Properties.CommandWords
import Verif.Properties.CommandWords2
import Verif.Properties.CommandWords3
import Verif.Properties.Progress2
import Verif.Properties.CommandWords4
import Verif.Properties.Transport
import Verif.Properties.TransportText
import Verif.Properties.Hyper
import Verif.Properties.SamplerUniform
import Verif.Properties.ThresholdChance
import Verif.Properties.ThresholdMean
import Verif.Properties.Chance
import Verif.Properties.ThresholdRun
import Verif.Properties.ChanceTask
import Verif.Properties.ScoreOrder
import Verif.Properties.Reproduce
import Verif.Properties.TaskLines
import Verif.Spec.TripletScores
import Verif.Proofs.TripletScores
import Verif.Properties.TripletScores
import Verif.Spec.Total
import Verif.Proofs.Total
import Verif.Properties.Total
import Verif.Spec.Separate
import Verif.Properties.Separate
import Verif.Spec.RowLines
import Verif.Proofs.RowLines
import Verif.Properties.RowLines
import Verif.Proofs.RowLevels
import Verif.Properties.RowLevels
import Verif.Spec.RowRename
import Verif.Proofs.RowRename
import Verif.Properties.RowRename
import Verif.Proofs.RowFilters
import Verif.Properties.RowFilters
import Verif.Spec.RowSplit
import Verif.Properties.RowSplit
import Verif.Spec.RowMove
import Verif.Properties.RowMove
import Verif.Properties.RowBetter
import Verif.Properties.RowOrder
import Verif.Spec.RowAcross
import Verif.Properties.RowAcross
import Verif.Properties.RowBetterOrder
import Verif.Proofs.RowColumns
import Verif.Properties.RowColumns
import Verif.Properties.RowReversed
import Verif.Audit
