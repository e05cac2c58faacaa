import Verif.Model.Py
import Verif.Model.Components
import Verif.Model.Operators
import Verif.Spec.Pipelines
import Verif.Spec.Variation
import Verif.Lemmas.Heap
import Verif.Lemmas.StrOrder
import Verif.Lemmas.Ops
import Verif.Lemmas.Ops2
import Verif.Lemmas.Mutation
import Verif.Lemmas.Crossover
import Verif.Lemmas.OpSet
import Verif.Props.Space
import Verif.Props.Operators
import Verif.Props.Individuals
import Verif.Model.FromString
import Verif.Lemmas.FromString
import Verif.Props.FromString
import Verif.Model.Score
import Verif.Model.Pareto
import Verif.Spec.Pareto
import Verif.Props.Pareto
import Verif.Model.Nsga2
import Verif.Spec.Sort
import Verif.Lemmas.Nsga2
import Verif.Props.Nsga2
import Verif.Model.Selection
import Verif.Props.Selection
import Verif.Model.Heapq
import Verif.Lemmas.Heapq
import Verif.Lemmas.Sample
import Verif.Model.Library
import Verif.Spec.Library
import Verif.Lemmas.Library
import Verif.Lemmas.Library2
import Verif.Lemmas.Library3
import Verif.Props.Library
import Verif.Props.LibraryLost
import Verif.Model.Dict
import Verif.Model.Async
import Verif.Spec.Async
import Verif.Lemmas.Async
import Verif.Lemmas.Async2
import Verif.Lemmas.Async3
import Verif.Props.Async
import Verif.Props.Async2
import Verif.Props.AsyncOnce
import Verif.Model.Search
import Verif.Props.Search
import Verif.Props.Search2
import Verif.Props.Asha
import Verif.Model.Ensemble
import Verif.Props.Ensemble
import Verif.Props.Ensemble2
import Verif.Model.Time
import Verif.Props.Time
import Verif.Model.Data
import Verif.Props.Data
import Verif.Model.Evaluate
import Verif.Props.Evaluate
import Verif.Model.Config
import Verif.Props.Config
import Verif.Props.Merge
import Verif.Model.Front
import Verif.Props.Front
import Verif.Model.Export
import Verif.Props.Export
import Verif.Model.Logs
import Verif.Props.Logs
import Verif.Model.Loading
import Verif.Props.Loading
import Verif.Model.Predict
import Verif.Props.Predict
import Verif.Model.Columns
import Verif.Props.Columns
import Verif.Props.Search3
import Verif.Props.Logs2
import Verif.Model.FromFile
import Verif.Props.FromFile
import Verif.Model.Scoring
import Verif.Props.Scoring
import Verif.Props.Best
import Verif.Props.Reach
import Verif.Props.ReachMate
import Verif.Model.Shipped
import Verif.Lemmas.Shipped
import Verif.Props.Shipped
import Verif.Props.Checks
import Verif.Props.Evolve
import Verif.Props.Defaults
import Verif.Spec.Chance
import Verif.Lemmas.Chance
import Verif.Props.Chance
import Verif.Props.ChanceVary
import Verif.Props.ChanceParents
import Verif.Props.ChanceElim
import Verif.Props.ChanceMate
import Verif.Props.ChanceMutate
import Verif.Props.ChanceOffspring
import Verif.Props.ChanceBreed
import Verif.Props.ChancePossible
import Verif.Props.ChanceRetry
import Verif.Props.ChanceAgain
import Verif.Model.Phase
import Verif.Props.Phase
import Verif.Model.Joint
import Verif.Lemmas.Joint
import Verif.Props.Joint
import Verif.Props.Progress
import Verif.Props.Crowding
import Verif.Model.Build
import Verif.Props.Build
import Verif.Props.Regularize
import Verif.Model.Whole
import Verif.Lemmas.Grow
import Verif.Lemmas.Whole
import Verif.Props.Whole
import Verif.Props.Whole2
import Verif.Props.Whole3
import Verif.Props.Reading
import Verif.Props.Lengths
import Verif.Props.Voting
import Verif.Props.Contained
import Verif.Props.Proba
import Verif.Props.Report
import Verif.Props.Refit
import Verif.Props.Refit2
import Verif.Props.Printing
import Verif.Props.Formats
import Verif.Props.Header
import Verif.Props.Encoding
import Verif.Props.Stratify
import Verif.Props.ClassOrder
import Verif.Props.FoldClasses
import Verif.Props.Reproduce
import Verif.Props.Reported
import Verif.Props.Paths
import Verif.Props.Floats
import Verif.Props.Halving
import Verif.Props.EndToEnd
import Verif.Props.Rungs
import Verif.Props.Shared
import Verif.Props.Cutoff
import Verif.Props.Trained
import Verif.Props.Oversized
import Verif.Props.Late
import Verif.Props.Process
import Verif.Props.Saved
import Verif.Props.Text
import Verif.Props.Nan
import Verif.Props.NanSort
import Verif.Props.Abort
import Verif.Props.Settings
import Verif.Props.Exact
import Verif.Props.Exact2
import Verif.Props.Lossy
import Verif.Props.Oversized2
import Verif.Model.CommandLine
import Verif.Props.CommandLine
import Verif.Props.Callbacks
import Verif.Model.NanFront
import Verif.Props.NanFront
import Verif.Model.MemoryLog
import Verif.Props.MemoryLog
import Verif.Model.NanCrowd
import Verif.Model.NanEnsemble
import Verif.Props.NanCrowd
import Verif.Props.NanAgrees
import Verif.Props.NanEnsemble
import Verif.Props.HalfRead
import Verif.Model.NanRung
import Verif.Props.NanRung
import Verif.Props.OffspringLength
import Verif.Props.LibraryRows
