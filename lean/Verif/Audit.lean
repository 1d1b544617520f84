import Lean.Elab.Command
import Lean.Util.CollectAxioms
import Verif.Properties.Analyze
import Verif.Properties.AnalyzeFile
import Verif.Properties.Convert
import Verif.Properties.DTW
import Verif.Properties.Database
import Verif.Properties.Distances
import Verif.Properties.EndToEnd
import Verif.Properties.ExtSort
import Verif.Properties.Features
import Verif.Properties.FromFile
import Verif.Properties.Items
import Verif.Properties.Jobs
import Verif.Properties.Lookup
import Verif.Properties.Metrics
import Verif.Properties.Pairs
import Verif.Properties.PairsWitness
import Verif.Properties.Reader
import Verif.Properties.Sampler
import Verif.Properties.Score
import Verif.Properties.SideOps
import Verif.Properties.Task
import Verif.Properties.TaskTotal
import Verif.Properties.TaskWitness
import Verif.Properties.Tree
import Verif.Properties.TypeFit
import Verif.Properties.UTW
import Verif.Properties.Verify
import Verif.Properties.Writer
import Verif.Properties.NbLevels
import Verif.Properties.SamplerProb
import Verif.Properties.H5IO
import Verif.Properties.TreeHeap
import Verif.Properties.CommandLine
import Verif.Properties.Distance
import Verif.Properties.Script
import Verif.Properties.Names
import Verif.Properties.Run
import Verif.Properties.Pipeline
import Verif.Properties.Generate
import Verif.Properties.Threshold
import Verif.Properties.Stats
import Verif.Properties.TaskObject
import Verif.Properties.ExampleDistances
import Verif.Properties.Plain
import Verif.Properties.Lines
import Verif.Properties.GenerateThreshold
import Verif.Properties.Progress
import Verif.Properties.Connector
import Verif.Properties.Bare
import Verif.Properties.RegInfo
import Verif.Properties.SamplerFloat
import Verif.Properties.ResultFile
import Verif.Properties.FullRun
import Verif.Properties.LinesThreshold
import Verif.Properties.ItemsThreshold
import Verif.Properties.Lost
import Verif.Properties.Never
import Verif.Properties.RegNames
import Verif.Properties.ItemText
import Verif.Properties.GeneratedText
import Verif.Properties.Removed
import Verif.Properties.EveryText
import Verif.Properties.TextTask
import Verif.Properties.ItemText2
import Verif.Properties.CommandWords
import Verif.Properties.CommandWords2
import Verif.Properties.CommandWords3
import Verif.Properties.Progress2
import Verif.Properties.CommandWords4
import Verif.Properties.Transport
import Verif.Properties.TransportText
import Verif.Properties.Hyper
import Verif.Properties.SamplerUniform
import Verif.Properties.ThresholdChance
import Verif.Properties.ThresholdMean
import Verif.Properties.Chance
import Verif.Properties.ThresholdRun
import Verif.Properties.ChanceTask
import Verif.Properties.ScoreOrder
import Verif.Properties.Reproduce
import Verif.Properties.TaskLines
import Verif.Properties.TripletScores
import Verif.Properties.Total
import Verif.Properties.Separate
import Verif.Properties.RowLines
import Verif.Properties.RowLevels
import Verif.Properties.RowRename
import Verif.Properties.RowFilters
import Verif.Properties.RowSplit
import Verif.Properties.RowMove
import Verif.Properties.RowBetter
import Verif.Properties.RowOrder
import Verif.Properties.RowAcross
import Verif.Properties.RowBetterOrder
import Verif.Properties.RowColumns
import Verif.Properties.RowReversed
/-!
Checks that no property theorem depends on an axiom other than `propext`, `Classical.choice` and `Quot.sound`.
-/
open Lean Elab Command

run_cmd do
  let env ← getEnv
  let mut n : Nat := 0
  for (c, info) in env.constants.toList do
    if let .thmInfo _ := info then
      if let .str _ s := c then
        let l := s.toList
        if l.head? == some 'C' && ((l.drop 1).take 2).all Char.isDigit && (l[3]? == some '_' || (l[3]?.any Char.isDigit && l[4]? == some '_')) then
          let ax ← liftCoreM (collectAxioms c)
          for a in ax do
            unless a == ``propext || a == ``Classical.choice || a == ``Quot.sound do
              throwError "{c} depends on {a}"
          n := n + 1
  logInfo m!"{n} property theorems"
