import Verif.Audit
import Verif.Model.Command
import Verif.Model.Common
import Verif.Model.Constants
import Verif.Model.Encoding
import Verif.Model.Errors
import Verif.Model.Evaluation
import Verif.Model.Experiment
import Verif.Model.F64
import Verif.Model.Failing
import Verif.Model.History
import Verif.Model.Json
import Verif.Model.Log
import Verif.Model.PF
import Verif.Model.Parallel
import Verif.Model.Plus
import Verif.Model.Prim
import Verif.Model.Registers
import Verif.Model.Serde
import Verif.Model.Travel
import Verif.Proofs.Accuracy
import Verif.Proofs.AllError
import Verif.Proofs.AnyError
import Verif.Proofs.AnySquare
import Verif.Proofs.Approx
import Verif.Proofs.Average
import Verif.Proofs.Bias
import Verif.Proofs.BiasNum
import Verif.Proofs.BiasTables
import Verif.Proofs.BigCount
import Verif.Proofs.Bits
import Verif.Proofs.BitsInv
import Verif.Proofs.Chains
import Verif.Proofs.Chernoff
import Verif.Proofs.ChernoffZeros
import Verif.Proofs.Collisions
import Verif.Proofs.CommandLine
import Verif.Proofs.Compare
import Verif.Proofs.Corrected
import Verif.Proofs.Count
import Verif.Proofs.Crowd
import Verif.Proofs.Deserialize
import Verif.Proofs.Encoding
import Verif.Proofs.Evaluation
import Verif.Proofs.ExpMoments
import Verif.Proofs.ExpSums
import Verif.Proofs.Experiment
import Verif.Proofs.Failing
import Verif.Proofs.Float
import Verif.Proofs.FloatOps
import Verif.Proofs.Fourth
import Verif.Proofs.Generic
import Verif.Proofs.Harmonic
import Verif.Proofs.Hash
import Verif.Proofs.HighRank
import Verif.Proofs.History
import Verif.Proofs.Json
import Verif.Proofs.Linear
import Verif.Proofs.Ln
import Verif.Proofs.LnFree
import Verif.Proofs.LogCases
import Verif.Proofs.LogFinal
import Verif.Proofs.LogKernel
import Verif.Proofs.LogLast
import Verif.Proofs.LogRel
import Verif.Proofs.LogSeries
import Verif.Proofs.LogSteps
import Verif.Proofs.LogUlp
import Verif.Proofs.MergeRegs
import Verif.Proofs.Moments
import Verif.Proofs.Monotone
import Verif.Proofs.Near
import Verif.Proofs.NegDep
import Verif.Proofs.Numbers
import Verif.Proofs.OscLower
import Verif.Proofs.OscSums
import Verif.Proofs.Oscillation
import Verif.Proofs.PFError
import Verif.Proofs.PFNum
import Verif.Proofs.PFRep
import Verif.Proofs.PFUse
import Verif.Proofs.Packed
import Verif.Proofs.Parallel
import Verif.Proofs.PlusRep
import Verif.Proofs.PlusUse
import Verif.Proofs.Popcount
import Verif.Proofs.Prim
import Verif.Proofs.Rank64
import Verif.Proofs.Ranks
import Verif.Proofs.RawAccuracy
import Verif.Proofs.Regimes
import Verif.Proofs.Registers
import Verif.Proofs.Runs
import Verif.Proofs.Safe
import Verif.Proofs.Serde
import Verif.Proofs.SetMachine
import Verif.Proofs.SevenBits
import Verif.Proofs.Sharp
import Verif.Proofs.SharpLower
import Verif.Proofs.Spacing
import Verif.Proofs.Sparse
import Verif.Proofs.SparseNeed
import Verif.Proofs.SparseRead
import Verif.Proofs.SparseUse
import Verif.Proofs.SparseWrap
import Verif.Proofs.SpecLemmas
import Verif.Proofs.StdError
import Verif.Proofs.Tables
import Verif.Proofs.Targets
import Verif.Proofs.Travel
import Verif.Proofs.Ulp
import Verif.Proofs.Variance
import Verif.Proofs.Whole
import Verif.Proofs.Whole2
import Verif.Proofs.Whole3
import Verif.Proofs.WholePF
import Verif.Proofs.Worst
import Verif.Props.Accuracy
import Verif.Props.AllError
import Verif.Props.Always
import Verif.Props.AnyError
import Verif.Props.Average
import Verif.Props.BiasTables
import Verif.Props.Builders
import Verif.Props.Canonical
import Verif.Props.Change
import Verif.Props.Chosen
import Verif.Props.Command
import Verif.Props.CommandLine
import Verif.Props.Compare
import Verif.Props.Defs
import Verif.Props.Deserialize
import Verif.Props.Drop
import Verif.Props.Encoding
import Verif.Props.Errors
import Verif.Props.Estimator
import Verif.Props.Evaluation
import Verif.Props.Exact
import Verif.Props.Experiment
import Verif.Props.Failing
import Verif.Props.FrontPage
import Verif.Props.Helpers
import Verif.Props.HistoryPF
import Verif.Props.HistoryPlus
import Verif.Props.Json
import Verif.Props.LargeRange
import Verif.Props.Lifetime
import Verif.Props.LnFree
import Verif.Props.Log
import Verif.Props.LogUlp
import Verif.Props.Member
import Verif.Props.Monotone
import Verif.Props.Narrow
import Verif.Props.Noticed
import Verif.Props.Numeric
import Verif.Props.OtherTypes
import Verif.Props.PFError
import Verif.Props.Parallel
import Verif.Props.Programs
import Verif.Props.RawAccuracy
import Verif.Props.Readme
import Verif.Props.Regimes
import Verif.Props.Registers
import Verif.Props.Runs
import Verif.Props.SetOps
import Verif.Props.Similar
import Verif.Props.Small
import Verif.Props.State
import Verif.Props.StdError
import Verif.Props.Tails
import Verif.Props.Targets
import Verif.Props.Toolchain
import Verif.Props.Travel
import Verif.Props.Typical
import Verif.Props.Usable
import Verif.Props.UsableCount
import Verif.Props.UsableSparse
import Verif.Props.Whole
import Verif.Props.WholePF
import Verif.Props.Work
import Verif.Props.Worst
import Verif.Spec
import Verif.SpecCommand
import Verif.SpecCount
import Verif.SpecDe
import Verif.SpecHistory
import Verif.SpecLn
import Verif.SpecNumbers
import Verif.SpecTargets
import Verif.SpecTravel
import Verif.SpecUse
import Verif.SpecUseCount
import Verif.SpecUseSparse
import Verif.Tests
import Verif.TestsFloat
