import Verif.Py
import Verif.Spec.Logic
import Verif.Model.LomOutputs
import Verif.Model.OutputDispatch
import Verif.Props.Outputs
import Verif.Model.PosteriorScores
import Verif.Model.ScoreDispatch
import Verif.Props.Scores
import Verif.Model.MatrixUpdates
import Verif.Model.MatrixWrappers
import Verif.Props.Posterior
import Verif.Props.Axes
import Verif.Props.Invariance
import Verif.Props.Int16
import Verif.Model.Parallel
import Verif.Props.Sampling
import Verif.Props.Parents
import Verif.Model.LambdaUpdates
import Verif.Props.Lambda
import Verif.Model.MaxMachine
import Verif.Props.MaxMachine
import Verif.Model.Lom
import Verif.Props.Generate
import Verif.Props.Canonise
import Verif.Model.AddLayer
import Verif.Props.AddLayer
import Verif.Model.Density
import Verif.Props.Density
import Verif.Model.Fuzzy
import Verif.Props.Fuzzy
import Verif.Model.QL
import Verif.Spec.Threshold
import Verif.Lemmas.QL
import Verif.Props.QL
import Verif.Props.Inferable
import Verif.Model.IBP
import Verif.Spec.Buffet
import Verif.Lemmas.IBP
import Verif.Props.IBP
import Verif.Model.CleanUp
import Verif.Spec.CleanUp
import Verif.Lemmas.CleanUp
import Verif.Props.CleanUp
import Verif.Props.CleanUpHalves
import Verif.Model.DataPrep
import Verif.Spec.Lists
import Verif.Spec.Columns
import Verif.Props.Lists
import Verif.Props.Disjoint
import Verif.Props.Splits
import Verif.Props.Noise
import Verif.Model.Numeric
import Verif.Spec.Counts
import Verif.Props.Numeric
import Verif.Model.Machine
import Verif.Lemmas.Machine
import Verif.Lemmas.BurnIn
import Verif.Lemmas.Window
import Verif.Lemmas.Total
import Verif.Lemmas.Sampling
import Verif.Lemmas.InferTotal
import Verif.Props.BurnIn
import Verif.Props.Infer
import Verif.Model.Wiring
import Verif.Model.Special
import Verif.Lemmas.Special
import Verif.Props.RunMax
import Verif.Props.RunQL
import Verif.Lemmas.InferIBP
import Verif.Props.RunIBP
import Verif.Lemmas.Wiring
import Verif.Props.SingleLayer
import Verif.Lemmas.Prior
import Verif.Props.Prior
import Verif.Model.Output
import Verif.Spec.Output
import Verif.Lemmas.MaxFuzzy
import Verif.Props.Output
import Verif.Props.OutputMax
import Verif.Props.MaxFuzzy
import Verif.Props.OutputState
import Verif.Spec.Hier
import Verif.Lemmas.Hier
import Verif.Props.Hier
import Verif.Model.Build
import Verif.Props.Build
import Verif.Spec.Samples
import Verif.Lemmas.Fresh
import Verif.Lemmas.FixedLbda
import Verif.Lemmas.Ergodic
import Verif.Lemmas.HierSteps
import Verif.Lemmas.HierErgodic
import Verif.Lemmas.OfHier
import Verif.Model.Posterior
import Verif.Props.Stationary
import Verif.Props.Converge
import Verif.Props.NoTies
import Verif.Lemmas.Variance
import Verif.Props.Consistent
import Verif.Props.IBPRow
import Verif.Props.OutputQL
import Verif.Props.Predict
import Verif.Lemmas.OtherTraces
import Verif.Model.Clans
import Verif.Spec.Clans
import Verif.Props.Clans
import Verif.Props.FactorDensity
import Verif.Props.PointOutput
import Verif.Model.Relevance
import Verif.Props.Relevance
import Verif.Props.FixLbda
import Verif.Props.Requested
import Verif.Model.Experiments
import Verif.Props.Predictive
import Verif.Props.GridSearch
import Verif.Props.StoredLambda
import Verif.Props.Exchange
import Verif.Props.Reconstruct
import Verif.Spec.Relabel
import Verif.Lemmas.Simulation
import Verif.Lemmas.LayerSweep
import Verif.Lemmas.Relabel
import Verif.Lemmas.RelabelData
import Verif.Props.Relabel
import Verif.Props.IBPLaws
import Verif.Model.Assemble
import Verif.Lemmas.Assemble
import Verif.Lemmas.Arity
import Verif.Lemmas.AssembleRun
import Verif.Lemmas.AssembleBuild
import Verif.Lemmas.AssembleLater
import Verif.Props.Assemble
import Verif.Lemmas.Rename
import Verif.Lemmas.RenameWiring
import Verif.Lemmas.AssembleNeat
import Verif.Lemmas.Describe
import Verif.Lemmas.DescribeExists
import Verif.Spec.Describe
import Verif.Props.Described
import Verif.Props.AnnealFixed
import Verif.Props.Again
import Verif.Props.MaxSweep
import Verif.Props.PriorSpecial
import Verif.Props.LambdaEdge
import Verif.Props.PredictBuilt
import Verif.Props.FixedLater
import Verif.Spec.Mirror
import Verif.Lemmas.ZeroLambda
import Verif.Props.Stuck
import Verif.Lemmas.RandomSweeps
import Verif.Spec.RandomOrder
import Verif.Lemmas.RandomOrder
import Verif.Lemmas.Mixing
import Verif.Props.Mixing
import Verif.Lemmas.OddData
import Verif.Props.OddData
import Verif.Spec.Deaf
import Verif.Lemmas.Deaf
import Verif.Props.Deaf
import Verif.Props.Fixing
import Verif.Spec.Averages
import Verif.Lemmas.Averages
import Verif.Lemmas.HierAverages
import Verif.Props.Averages
import Verif.Spec.BuiltOrders
import Verif.Props.BuiltConverge
import Verif.Props.LinkedMaps
import Verif.Props.MaxFuzzyExact
import Verif.Props.FormulasExact
import Verif.Lemmas.Sweepwise
import Verif.Props.GetsStuck
import Verif.Lemmas.EveryData
import Verif.Props.EveryData
import Verif.Props.Unheard
import Verif.Lemmas.Patterns
import Verif.Props.Quiet
import Verif.Props.EveryModel
import Verif.Props.NoSamples
import Verif.Lemmas.RandomStart
import Verif.Props.RandomStart
import Verif.Model.Init
import Verif.Props.RandomInit
import Verif.Lemmas.SigmoidConcave
import Verif.Props.NoisyOutput
import Verif.Props.Techniques
import Verif.Props.LambdaSpread
import Verif.Model.ParallelLoops
import Verif.Props.ParallelLoops
import Verif.Lemmas.CleanHier
import Verif.Props.CleanHier
import Verif.Lemmas.SpecialHier
import Verif.Props.SpecialHier
import Verif.Props.UnknownModel
import Verif.Props.IBPHier
import Verif.Props.Failures
import Verif.Model.Plot
import Verif.Props.Plot
import Verif.Model.Frames
import Verif.Props.Frames
import Verif.Props.SameMachine
import Verif.Model.Wrappers
import Verif.Props.Wrappers
import Verif.Lemmas.Beside
import Verif.Lemmas.BesideFlip
import Verif.Props.Beside
import Verif.Lemmas.Continue
import Verif.Props.Continue
import Verif.Props.ZeroOne
import Verif.Props.FixedArg
import Verif.Props.EdgePrior
import Verif.Props.RandomMatrix
import Verif.Props.NoiseFree
import Verif.Props.MoreDimensions
import Verif.Props.CleanModels
import Verif.Props.Dbtf
import Verif.Props.MirrorDims
import Verif.Props.MeanPredictions
import Verif.Props.TwinRows
import Verif.Props.MapPredictions
import Verif.Props.Symmetric
import Verif.Props.TwinModels
import Verif.Props.LargeStrength
import Verif.Props.OneMoreCell
import Verif.Props.OneMoreCell3
import Verif.Props.TwinSlices
import Verif.Props.LargeStrengthPrior
import Verif.Props.PerfectFit
