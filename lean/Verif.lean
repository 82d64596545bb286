import Verif.Props.Collections
import Verif.Props.HTable
import Verif.Props.Levels
import Verif.Props.Size
import Verif.Props.LList
import Verif.Props.Compare
import Verif.Props.Distance
import Verif.Props.Graph
import Verif.Props.Mst
import Verif.Props.Hierarchy
import Verif.Props.Stability
import Verif.Props.Density
import Verif.Props.Selection
import Verif.Props.Labels
import Verif.Props.Outlier
import Verif.Props.Infinite
import Verif.Props.Race
import Verif.Props.SortClusters
import Verif.Props.ClusterMap
import Verif.Props.Stats
import Verif.Props.Api
import Verif.Props.Heap
import Verif.Props.Invariance
import Verif.Props.Rearrange
import Verif.Props.RaceRun
import Verif.Props.Python
import Verif.Props.PythonHeap
import Verif.Props.Concrete
import Verif.Props.Compact
import Verif.Props.Any
import Verif.Props.Print
import Verif.Props.Report
import Verif.Props.Java
import Verif.Props.Keys
import Verif.Props.Cpp
import Verif.Props.Layout
import Verif.Props.MinPoints
import Verif.Props.ReportHeap
import Verif.Props.Double
import Verif.Props.Fp
import Verif.Props.Cuda
import Verif.Props.Perturb
import Verif.Props.Oom
import Verif.Props.Sort
import Verif.Props.Buckets
import Verif.Props.Marks
import Verif.Props.Cleared
import Verif.Props.DistObj
import Verif.Props.RaceMore
import Verif.Props.ConcreteAny
import Verif.Props.Stack
import Verif.Props.Flat
import Verif.Props.GraphObj
import Verif.Props.Constraints
import Verif.Props.SkewKurt
import Verif.Props.Rounding
import Verif.Props.Groups
import Verif.Props.StabRun
import Verif.Lemmas.OutAny
import Verif.Lemmas.NumAny
import Verif.Props.StabAny
import Verif.Props.ScoreRun
import Verif.Props.PrintRun
import Verif.Props.GroupsAny
import Verif.Props.Types
import Verif.Props.Order
import Verif.Props.Scale
import Verif.Props.Finite
import Verif.Props.RaceAny
import Verif.Props.AnyThreads
import Verif.Props.FlatAny
import Verif.Props.Again
import Verif.Props.Columns
import Verif.Props.LListMem
import Verif.Props.SortNan
import Verif.Props.Mirror
import Verif.Props.Sample
import Verif.Props.PrintCpp
import Verif.Props.Limit
import Verif.Props.CoreBound
import Verif.Props.ReportScale
import Verif.Props.FloatSet
import Verif.Props.IndexType
import Verif.Props.HTableMem
import Verif.Props.LossyMap
import Verif.Props.SingleLink
import Verif.Props.Few
import Verif.Props.Farther
import Verif.Props.Nearest
import Verif.Props.Deep
import Verif.Props.Separated
import Verif.Props.Scattered
import Verif.Props.Outlying
import Verif.Props.FarRows
import Verif.Props.SeparatedReal
import Verif.Props.HierThreads
import Verif.Props.RunThreads
import Verif.Props.RerunThreads
import Verif.Props.FiniteThreads
import Verif.Props.AnyRunThreads
import Verif.Props.ScoreThreads
import Verif.Props.UnitThreads
