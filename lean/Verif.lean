import Verif.Props.Util
import Verif.Props.OrderedDictSet
import Verif.Props.RouteData
import Verif.Props.CvrpOps
import Verif.Props.IntraRoute
import Verif.Props.InterRoute
import Verif.Props.Ropt
import Verif.Props.LocalSearch
import Verif.Props.ParallelSavings
import Verif.Props.SequentialSavings
import Verif.Props.Lr3opt
import Verif.Props.Vrph
import Verif.Props.Tsplib
import Verif.Props.OptFile
import Verif.Props.Sweep
import Verif.Props.FileList
import Verif.Props.GillettMiller
import Verif.Props.Rfcs
import Verif.Props.RfcsInterrupt
import Verif.Props.WrenHolliday
import Verif.Props.NearestNeighbor
import Verif.Props.CheapestInsertion
import Verif.Props.CheapestInsertionGreedy
import Verif.Props.Cmt
import Verif.Props.CmtChoice
import Verif.Props.Star
import Verif.Props.Lr3optMove
import Verif.Props.Lr3optInit
import Verif.Props.WrenHollidayProc
import Verif.Props.WrenHollidayInit
import Verif.Props.WrenHollidayEndless
import Verif.Props.LocalSearchInner
import Verif.Props.SavingsVariants
import Verif.Props.MoleJameson
import Verif.Props.SweepCallback
import Verif.Props.Tyagi
import Verif.Props.Matching
import Verif.Props.Petal
import Verif.Props.Gap
import Verif.Props.GapSeeds
import Verif.Props.PetalRelax
import Verif.Props.Cli
import Verif.Props.CliBatch
import Verif.Model.Algorithms
import Verif.Spec.Algorithms
import Verif.Props.Algorithms
import Verif.Model.Parallel
import Verif.Props.Parallel
import Verif.Model.CallInit
import Verif.Spec.CallInit
import Verif.Props.CallInit
import Verif.Props.EndToEnd
import Verif.Model.ProblemFile
import Verif.Spec.ProblemFile
import Verif.Props.ProblemFile
import Verif.Spec.ProblemFields
import Verif.Props.ProblemFields
import Verif.Spec.CoordFile
import Verif.Props.CoordFile
import Verif.Props.Distances
import Verif.Props.NaturalSort
import Verif.Props.CmtInterrupt
import Verif.Props.TspGurobi
import Verif.Props.TspExternal
import Verif.Props.CallSolver
import Verif.Props.EdgeSet
import Verif.Model.Naive
import Verif.Spec.Naive
import Verif.Props.Naive
import Verif.Props.SweepRuns
import Verif.Props.NaivePairs
import Verif.Model.Generate
import Verif.Spec.Generate
import Verif.Props.Generate
import Verif.Model.CliArgs
import Verif.Spec.CliArgs
import Verif.Props.CliArgs
import Verif.Spec.Rounded
import Verif.Props.Rounded
import Verif.Model.TspCli
import Verif.Spec.TspCli
import Verif.Props.TspCli
import Verif.Lemmas.NaiveStar
import Verif.Props.VeRyPyMain
import Verif.Props.Lr3optRandom
import Verif.Props.RouteStats
import Verif.Props.RoptNamed
import Verif.Props.RedistributeRoom
