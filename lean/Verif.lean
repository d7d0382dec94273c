import Verif.Model.Basic
import Verif.Model.Flat
import Verif.Model.Level
import Verif.Model.Fast
import Verif.Model.Runs
import Verif.Model.Serialize
import Verif.Model.Parallel
import Verif.Model.Intersect
import Verif.Spec
import Verif.Proof.Enum
import Verif.Proof.Tree
import Verif.Proof.Rep
import Verif.Proof.Decode
import Verif.Proof.Word
import Verif.Proof.Build
import Verif.Proof.BuildFlat
import Verif.Proof.FlatRep
import Verif.Proof.LevelRep
import Verif.Proof.FastRep
import Verif.Proof.RunsEnc
import Verif.Proof.RunsWrite
import Verif.Proof.Prune
import Verif.Proof.Built
import Verif.Proof.FlatCollapse
import Verif.SpecCount
import Verif.Proof.Count
import Verif.Proof.Edges
import Verif.Props.Size
import Verif.Props.Decode
import Verif.Props.Runs
import Verif.Props.Serialize
import Verif.Proof.And
import Verif.Proof.RunsAnd
import Verif.Proof.Inter
import Verif.Props.Tries
import Verif.Props.Intersect
import Verif.Proof.Threads
import Verif.Proof.SerialRt
import Verif.Proof.Partial
import Verif.Proof.ParInter
import Verif.Proof.Capacity
import Verif.Props.Parallel
import Verif.Proof.Appends
import Verif.Proof.Reach
import Verif.Proof.SmallFast
import Verif.Proof.Empty
import Verif.Props.AnyState
import Verif.Props.Small
import Verif.Props.Edge
import Verif.Model.Brute
import Verif.Proof.Brute
import Verif.Props.Brute
import Verif.Model.BarbayKenyon
import Verif.Proof.BarbayKenyon
import Verif.Proof.BarbaySound
import Verif.Proof.BarbayComplete
import Verif.SpecBarbay
import Verif.Proof.BarbayReturned
import Verif.Proof.BarbayWalk
import Verif.Props.BarbayKenyon
import Verif.Model.Measures
import Verif.SpecMeasures
import Verif.Proof.Measures
import Verif.Props.Measures
import Verif.Model.Tools
import Verif.SpecTools
import Verif.Proof.Tools
import Verif.Proof.ToolsFast
import Verif.Model.ToolsTries
import Verif.Proof.ToolsTries
import Verif.Props.Tools
import Verif.Model.QueryText
import Verif.SpecText
import Verif.Proof.QueryText
import Verif.Props.QueryText
import Verif.Model.CommandLine
import Verif.SpecArgs
import Verif.Proof.CommandLine
import Verif.Props.CommandLine
import Verif.Model.Size
import Verif.Props.Docs
import Verif.Model.Stats
import Verif.SpecStats
import Verif.Proof.Stats
import Verif.Props.Stats
import Verif.Model.Arrays
import Verif.Proof.Arrays
import Verif.Props.Arrays
import Verif.Model.Copies
import Verif.Proof.Copies
import Verif.Props.Copies
import Verif.Proof.Mono
import Verif.Proof.Height1
import Verif.Props.Returned
import Verif.SpecUnreadable
import Verif.Proof.Unreadable
import Verif.Proof.UnreadableSets
import Verif.Proof.UnreadableFlat
import Verif.Proof.UnreadableInter
import Verif.Props.Unreadable
import Verif.Props.Height1
import Verif.Model.Strict
import Verif.SpecStrict
import Verif.Proof.Strict
import Verif.Proof.StrictSets
import Verif.Props.Strict
import Verif.Proof.StrictPar
import Verif.Props.StrictPar
import Verif.Model.Memory
import Verif.SpecMemory
import Verif.Proof.Memory
import Verif.Proof.MemoryBody
import Verif.Proof.MemoryLeak
import Verif.Props.Memory
import Verif.Model.Access
import Verif.SpecRace
import Verif.Proof.Access
import Verif.Proof.Listed
import Verif.Props.Race
import Verif.Model.Affinity
import Verif.Proof.Affinity
import Verif.Props.Affinity
import Verif.SpecRuns
import Verif.Proof.ExactRuns
import Verif.Proof.ExactSets
import Verif.Proof.ExactList
import Verif.Proof.ExactMem
import Verif.Props.ExactRuns
import Verif.Props.ToolsRuns
import Verif.Model.Cost
import Verif.SpecCost
import Verif.Proof.Cost
import Verif.Proof.CostTree
import Verif.Proof.CostSets
import Verif.Proof.CostPar
import Verif.Proof.CostRuns
import Verif.Proof.CostRunsSets
import Verif.Proof.CostInter
import Verif.Props.Cost
import Verif.Model.Checks
import Verif.SpecChecks
import Verif.Proof.Checks
import Verif.Proof.ChecksInter
import Verif.Props.Checks
import Verif.SpecUnreadPar
import Verif.Proof.UnreadablePar
import Verif.Proof.UnreadableParSets
import Verif.Props.UnreadablePar
import Verif.SpecToolsRuns
import Verif.Proof.UnreadableDecode
import Verif.Props.ToolsExact
import Verif.SpecAdaptive
import Verif.Proof.Adaptive
import Verif.Props.Adaptive
import Verif.SpecSpace
import Verif.Proof.Space
import Verif.Props.Space
import Verif.Model.BuildCost
import Verif.Model.DecodeCost
import Verif.Proof.DecodeCost
import Verif.Proof.BuildCost
import Verif.Props.DecodeCost
import Verif.Props.BuildCost
import Verif.Props.Many
import Verif.Props.Stages
import Verif.Props.Canonical
import Verif.SpecNav
import Verif.Proof.Lookup
import Verif.Proof.LookupBad
import Verif.Props.Lookup
import Verif.Model.EncodeCost
import Verif.Proof.EncodeCost
import Verif.Proof.EncodeCount
import Verif.Props.EncodeCost
import Verif.SpecVector
import Verif.Proof.Vector
import Verif.Props.Vectors
import Verif.SpecFlags
import Verif.Proof.Flags
import Verif.Proof.FlagsHits
import Verif.Props.Flags
import Verif.Props.FlagsExact
import Verif.Model.Session
import Verif.SpecSession
import Verif.Proof.Session
import Verif.Props.Session
import Verif.Proof.TwiceWrite
import Verif.Proof.TwiceRead
import Verif.Proof.TwiceSets
import Verif.Props.Twice
import Verif.Proof.AnyInter
import Verif.Proof.AnyInterErr
import Verif.Props.AnyInter
import Verif.Props.FlagsPar
import Verif.Proof.AnyRuns
import Verif.Props.AnyRuns
import Verif.Model.Work
import Verif.Proof.Work
import Verif.Proof.WorkPlain
import Verif.Props.Work
import Verif.Model.Rounding
import Verif.Props.Rounding
import Verif.Model.QueuePeak
import Verif.Proof.QueuePeak
import Verif.Props.QueuePeak
import Verif.Proof.TrieFiles
import Verif.Props.TrieFiles
import Verif.Props.Universe
import Verif.Props.Truncated
import Verif.Props.TruncatedStats
import Verif.Props.TruncatedPom
import Verif.Props.WordPad
import Verif.SpecLooks
import Verif.Proof.BuildLooks
import Verif.Props.BuildLooks
import Verif.Props.BadArgs
import Verif.Props.SerializeIl
import Verif.Props.Report
import Verif.Model.StatsMain
import Verif.SpecStatsArgs
import Verif.Props.StatsMain
import Verif.Props.Missing
import Verif.Props.MoreSets
import Verif.Props.ManyThreads
import Verif.SpecTwice
import Verif.Proof.TwicePad
import Verif.Proof.TwicePadRead
import Verif.Proof.TwicePadLevel
import Verif.Proof.TwicePadFlat
import Verif.Proof.TwicePadSets
import Verif.Props.TwicePad
import Verif.SpecWide
import Verif.Proof.WideThreads
import Verif.Proof.WideSets
import Verif.Props.WideThreads
import Verif.SpecReads
import Verif.Proof.CostRunsPar
import Verif.Proof.CostRunsParSets
import Verif.Proof.VisitedSets
import Verif.Props.RunsParReads
import Verif.Proof.ShortLists
import Verif.Props.ShortLists
import Verif.Props.Limits
import Verif.SpecGrow
import Verif.Proof.SmallerFiles
import Verif.Props.SmallerFiles
import Verif.Proof.LossLaws
import Verif.Props.LossLaws
import Verif.SpecScripts
import Verif.Props.Scripts
import Verif.Model.Shifts
import Verif.Proof.Shifts
import Verif.Props.Shifts
import Verif.Props.ScriptChecks
import Verif.Model.Unelided
import Verif.Props.Unelided
import Verif.Model.Repeats
import Verif.Proof.Repeats
import Verif.Props.Repeats
import Verif.Proof.AnyDecode
import Verif.Props.AnyDecode
import Verif.Proof.AnyOutcome
import Verif.Props.AnyOutcome
import Verif.Model.ResultsFile
import Verif.SpecResults
import Verif.Proof.ResultsFile
import Verif.Props.ResultsFile
import Verif.Model.BuildFiles
import Verif.Proof.BuildFiles
import Verif.Props.BuildFiles
import Verif.Proof.LongLists
import Verif.Props.LongLists
import Verif.Proof.Queries
import Verif.Props.Queries
import Verif.Model.RankBench
import Verif.Proof.RankBench
import Verif.Props.RankBench
import Verif.Proof.DirtyLists
import Verif.Proof.DirtyQueries
import Verif.Props.DirtyLists
