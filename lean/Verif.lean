import Verif.Lemmas.AxisIndex
import Verif.Lemmas.Batch
import Verif.Lemmas.Bootstrap
import Verif.Lemmas.Correlation
import Verif.Lemmas.Displacement
import Verif.Lemmas.Expressions
import Verif.Lemmas.LsNmf
import Verif.Lemmas.MapM
import Verif.Lemmas.PyDict
import Verif.Lemmas.TrainLoop
import Verif.Lemmas.WsNmf
import Verif.Model.Analysis
import Verif.Model.AnalysisTables
import Verif.Model.BaseEstimate
import Verif.Model.Batch
import Verif.Model.BatchCallback
import Verif.Model.BatchProgress
import Verif.Model.BatchViews
import Verif.Model.BestMatch
import Verif.Model.Bootstrap
import Verif.Model.BsDispSummary
import Verif.Model.BsRun
import Verif.Model.BsViews
import Verif.Model.CatalogTable
import Verif.Model.Cli
import Verif.Model.CliData
import Verif.Model.CliSession
import Verif.Model.CompareTools
import Verif.Model.ConfigText
import Verif.Model.Constrained
import Verif.Model.ConstrainedTrain
import Verif.Model.ConstrainedViews
import Verif.Model.ConstraintLists
import Verif.Model.Correlation
import Verif.Model.DataHandler
import Verif.Model.DispFault
import Verif.Model.DispFigures
import Verif.Model.DispRun
import Verif.Model.Displacement
import Verif.Model.ErrorSummary
import Verif.Model.Estimator
import Verif.Model.EstimatorTable
import Verif.Model.Expressions
import Verif.Model.FactorCatalog
import Verif.Model.FactorCompare
import Verif.Model.Fingerprints
import Verif.Model.Float32
import Verif.Model.FloatLoop
import Verif.Model.Gpu
import Verif.Model.Highlights
import Verif.Model.Ieee
import Verif.Model.IeeeWeights
import Verif.Model.Impute
import Verif.Model.InputFigures
import Verif.Model.Layout
import Verif.Model.LoopStep
import Verif.Model.LsNmf
import Verif.Model.Mat
import Verif.Model.MemReport
import Verif.Model.Mesh3d
import Verif.Model.Metrics
import Verif.Model.ModelNumbers
import Verif.Model.PerturbCompare
import Verif.Model.PerturbRun
import Verif.Model.Pipeline
import Verif.Model.PlotAlignment
import Verif.Model.PullMatrices
import Verif.Model.PyDict
import Verif.Model.Quantile
import Verif.Model.Recombinator
import Verif.Model.RobustAlpha
import Verif.Model.Runtime
import Verif.Model.RustLinalg
import Verif.Model.RustPseudo
import Verif.Model.SA
import Verif.Model.SaveErrors
import Verif.Model.SaveLoad
import Verif.Model.Setup
import Verif.Model.SimCompare
import Verif.Model.SimState
import Verif.Model.Simulator
import Verif.Model.SinglePrecision
import Verif.Model.SolutionCmd
import Verif.Model.TimeAxis
import Verif.Model.TrainLoop
import Verif.Model.Training
import Verif.Model.Utils
import Verif.Model.Workflow
import Verif.Model.WsNmf
import Verif.Props.Analysis
import Verif.Props.AnalysisTables
import Verif.Props.BaseEstimate
import Verif.Props.Batch
import Verif.Props.BatchCallback
import Verif.Props.BatchProgress
import Verif.Props.BatchViews
import Verif.Props.BestMatch
import Verif.Props.BlockRule
import Verif.Props.Bootstrap
import Verif.Props.BootstrapCounts
import Verif.Props.BsDispSummary
import Verif.Props.BsRun
import Verif.Props.BsViews
import Verif.Props.CatalogMatrix
import Verif.Props.CatalogTable
import Verif.Props.Cli
import Verif.Props.CliData
import Verif.Props.CliSession
import Verif.Props.CompareTools
import Verif.Props.ConfigText
import Verif.Props.Constrained
import Verif.Props.ConstrainedPull
import Verif.Props.ConstrainedTrain
import Verif.Props.ConstrainedViews
import Verif.Props.ConstraintLists
import Verif.Props.Continuity
import Verif.Props.ContinuityPy
import Verif.Props.ContinuityWs
import Verif.Props.Converged
import Verif.Props.Copies
import Verif.Props.CopiesPy
import Verif.Props.DataHandler
import Verif.Props.Dependence
import Verif.Props.DispFault
import Verif.Props.DispFigures
import Verif.Props.DispInterval
import Verif.Props.DispRun
import Verif.Props.Displacement
import Verif.Props.DownWeight
import Verif.Props.DownWeightWs
import Verif.Props.ErrorSummary
import Verif.Props.Estimator
import Verif.Props.EstimatorTable
import Verif.Props.ExprSystem
import Verif.Props.Expressions
import Verif.Props.FactorCatalog
import Verif.Props.FactorCompare
import Verif.Props.FeatureCopies
import Verif.Props.Fingerprints
import Verif.Props.Float32
import Verif.Props.FloatLoop
import Verif.Props.Gpu
import Verif.Props.GpuRobust
import Verif.Props.Highlights
import Verif.Props.HoldLimit
import Verif.Props.HoldOptimal
import Verif.Props.Ieee
import Verif.Props.IeeeDescent
import Verif.Props.IeeeLoss
import Verif.Props.IeeeRobust
import Verif.Props.IeeeRuns
import Verif.Props.IeeeWeights
import Verif.Props.IeeeWs
import Verif.Props.IeeeZero
import Verif.Props.Impute
import Verif.Props.Ineffective
import Verif.Props.InputFigures
import Verif.Props.InputFigures2
import Verif.Props.Layout
import Verif.Props.LimitsPy
import Verif.Props.LongRun
import Verif.Props.LsNmf
import Verif.Props.MemReport
import Verif.Props.Mesh3d
import Verif.Props.Metrics
import Verif.Props.ModelNumbers
import Verif.Props.OneFactorBest
import Verif.Props.Order
import Verif.Props.PerturbCompare
import Verif.Props.PerturbRun
import Verif.Props.Pipeline
import Verif.Props.PlotAlignment
import Verif.Props.PullFactor
import Verif.Props.PullMatrices
import Verif.Props.PullSearch
import Verif.Props.PullTotal
import Verif.Props.PyUnits
import Verif.Props.PythonRuns
import Verif.Props.Quantile
import Verif.Props.Recombinator
import Verif.Props.Rescaling
import Verif.Props.RidgeDensity
import Verif.Props.RobustAlpha
import Verif.Props.Runtime
import Verif.Props.RustLinalg
import Verif.Props.RustPseudo
import Verif.Props.SA
import Verif.Props.SampleMultiples
import Verif.Props.SaveErrors
import Verif.Props.SaveLoad
import Verif.Props.Settled
import Verif.Props.Setup
import Verif.Props.SimCompare
import Verif.Props.SimState
import Verif.Props.Simulator
import Verif.Props.SinglePrecision
import Verif.Props.SolutionCmd
import Verif.Props.StartValues
import Verif.Props.TimeAxis
import Verif.Props.TrainLoop
import Verif.Props.Training
import Verif.Props.Units
import Verif.Props.Utils
import Verif.Props.Workflow
import Verif.Props.WsFixed
import Verif.Props.WsLongRun
import Verif.Props.WsNmf
import Verif.Props.WsObjective
import Verif.Props.WsRuns
import Verif.Props.WsRunsPy
import Verif.Spec.TrainLoop
