import Verif.Model.Py
import Verif.Model.Samplers
import Verif.Model.Adaptation
import Verif.Model.ErrorVariance
import Verif.Model.Simulator
import Verif.Model.Settings
import Verif.Model.Mcmc
import Verif.Model.LogFiles
import Verif.Lemmas.Basic
import Verif.Lemmas.Step
import Verif.Lemmas.Loop
import Verif.Lemmas.Run
import Verif.Lemmas.History
import Verif.Lemmas.Counts
import Verif.Lemmas.Continue
import Verif.Lemmas.Sigma
import Verif.Lemmas.Logs
import Verif.Lemmas.Decimal
import Verif.Lemmas.LogFiles
import Verif.Spec.Run
import Verif.Spec.Toy
import Verif.Props.Run
import Verif.Props.Continue
import Verif.Props.Logs
import Verif.Lemmas.XR
import Verif.Lemmas.Alpha
import Verif.Lemmas.AlphaXR
import Verif.Spec.Points
import Verif.Props.Metropolis
import Verif.Props.DelayedRejection
import Verif.Props.AlphaCost
import Verif.Spec.Stats
import Verif.Lemmas.CovXR
import Verif.Lemmas.CovRun
import Verif.Lemmas.Progress
import Verif.Spec.XToy
import Verif.Props.Progress
import Verif.Props.Adaptation
import Verif.Spec.LinAlg
import Verif.Lemmas.AdaptRun
import Verif.Lemmas.FactorsXR
import Verif.Lemmas.FiniteRun
import Verif.Props.Covariance
import Verif.Props.Factors
import Verif.Props.RankOne
import Verif.Props.Robust
import Verif.Props.RobustInput
import Verif.Props.RobustRejection
import Verif.Props.VarianceContinued
import Verif.Props.VarianceHistory
import Verif.Props.PriorHistory
import Verif.Props.StagesContinued
import Verif.Props.Observations
import Verif.Lemmas.SigmaDraws
import Verif.Lemmas.SettingsLen
import Verif.Props.ErrorVariance
import Verif.Props.PositiveVariance
import Verif.Props.QuickTest
import Verif.Model.Parallel
import Verif.Props.Restart
import Verif.Props.DataSets
import Verif.Props.Parallel
import Verif.Props.ParallelLoad
import Verif.Model.Quantiles
import Verif.Model.Propagation
import Verif.Model.PlotUtils
import Verif.Props.Quantiles
import Verif.Props.Propagation
import Verif.Props.PlotUtils
import Verif.Model.ChainStats
import Verif.Model.DefaultFuns
import Verif.Props.GelmanRubin
import Verif.Props.ChainStats
import Verif.Props.Autocorrelation
import Verif.Props.DefaultFuns
import Verif.Props.Options
import Verif.Props.Continuation
import Verif.Props.ContinuedAdaptation
import Verif.Props.PriorKept
import Verif.Props.Decisions
import Verif.Props.Burnin
import Verif.Props.Report
import Verif.Props.Valid
import Verif.Props.Stages
import Verif.Model.Intervals
import Verif.Props.Intervals
import Verif.Spec.IdealRng
import Verif.Lemmas.GaussStep
import Verif.Lemmas.Balance
import Verif.Lemmas.DrMove
import Verif.Lemmas.CoinRng
import Verif.Props.Invariance
import Verif.Lemmas.Rejection
import Verif.Lemmas.GammaLaw
import Verif.Lemmas.GammaRun
import Verif.Props.GammaLaw
import Verif.Props.JointInvariance
import Verif.Props.Convergence
import Verif.Props.JointConvergence
import Verif.Model.Panels
import Verif.Model.IntervalPlots
import Verif.Props.Panels
import Verif.Props.IntervalPlots
import Verif.Model.Storage
import Verif.Props.Storage
import Verif.Props.CovLog
import Verif.Model.ParallelRestart
import Verif.Props.ParallelRestart
import Verif.Spec.Cholesky
import Verif.Lemmas.AdaptiveMove
import Verif.Lemmas.FactorMove
import Verif.Props.AdaptiveChain
import Verif.Lemmas.JointFactor
import Verif.Props.AdaptiveJoint
import Verif.Lemmas.CovBound
import Verif.Props.Diminishing
import Verif.Model.Custom
import Verif.Spec.Custom
import Verif.Lemmas.Custom
import Verif.Lemmas.CustomRun
import Verif.Lemmas.CustomLogs
import Verif.Props.Custom
import Verif.Model.Console
import Verif.Spec.Console
import Verif.Lemmas.RejCount
import Verif.Lemmas.Console
import Verif.Props.Console
import Verif.Model.NumberText
import Verif.Spec.NumberText
import Verif.Props.NumberText
import Verif.Model.Tables
import Verif.Spec.Tables
import Verif.Props.Tables
import Verif.Props.EqualNames
import Verif.Lemmas.Forget
import Verif.Lemmas.MoveHarris
import Verif.Lemmas.Means
import Verif.Lemmas.JointHarris
import Verif.Props.Unbounded
import Verif.Props.JointUnbounded
import Verif.Lemmas.Estimates
import Verif.Props.Estimates
import Verif.Lemmas.Coverage
import Verif.Props.Coverage
import Verif.Model.PredictionPlots
import Verif.Props.PredictionPlots
import Verif.Lemmas.Resampling
import Verif.Props.IntervalCoverage
import Verif.Model.SharedArrays
import Verif.Lemmas.SharedArrays
import Verif.Lemmas.SharedAgree
import Verif.Props.SharedArrays
import Verif.Props.RestartRun
import Verif.Model.PropObs
import Verif.Props.PropOutput
import Verif.Props.PropCoverage
import Verif.Lemmas.KernelClose
import Verif.Lemmas.KernelClose2
import Verif.Lemmas.WeakAverage
import Verif.Lemmas.AdaptiveErgodic
import Verif.Lemmas.SettledFactor
import Verif.Props.AdaptiveConvergence
import Verif.Model.IntCov
import Verif.Props.IntCov
import Verif.Model.DrScale
import Verif.Props.DrScale
import Verif.Model.ChainMetrics
import Verif.Props.ChainMetrics
import Verif.Model.IndexLog
import Verif.Props.IndexLog
import Verif.Lemmas.JointSettled
import Verif.Props.AdaptiveJointConvergence
import Verif.Props.ContinuationRuns
import Verif.Props.AdaptiveEstimates
import Verif.Model.ShowSettings
import Verif.Props.ShowSettings
import Verif.Props.StatEntries
import Verif.Model.OldAccept
import Verif.Props.OldAccept
import Verif.Model.Displays
import Verif.Props.Displays
import Verif.Model.ResultEntries
import Verif.Props.ResultEntries
import Verif.Props.GammaExact
import Verif.Props.ValidAdaptation
import Verif.Model.AcceptanceText
import Verif.Props.AcceptanceText
import Verif.Model.Spectrum
import Verif.Props.Spectrum
import Verif.Lemmas.CoverageRows
import Verif.Props.AdaptiveCoverage
import Verif.Lemmas.ResamplingRows
import Verif.Props.AdaptivePrediction
import Verif.Model.ResultsDict
import Verif.Props.ResultsDict
import Verif.Props.AddParameter
