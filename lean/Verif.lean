import Verif.Model.Bootstrap
import Verif.Model.Checks
import Verif.Model.ContextFree
import Verif.Model.Contextual
import Verif.Model.Continuous
import Verif.Model.ContinuousDataset
import Verif.Model.Dataset
import Verif.Model.DatasetInit
import Verif.Model.Embed
import Verif.Model.EmbedDataset
import Verif.Model.Environment
import Verif.Model.Estimators
import Verif.Model.Helper
import Verif.Model.Meta
import Verif.Model.Multi
import Verif.Model.NeuralFit
import Verif.Model.NeuralInit
import Verif.Model.NeuralNet
import Verif.Model.Numpy
import Verif.Model.Offline
import Verif.Model.OpeInit
import Verif.Model.PolicyInit
import Verif.Model.RealDataset
import Verif.Model.Regression
import Verif.Model.Reports
import Verif.Model.RewardFunction
import Verif.Model.RewardLaw
import Verif.Model.Scalar
import Verif.Model.Simulator
import Verif.Model.Slate
import Verif.Model.SlateBatch
import Verif.Model.SlateDataset
import Verif.Model.SlateInteraction
import Verif.Model.Tuning
import Verif.Model.Utils
import Verif.Spec.Argsort
import Verif.Spec.BanditWorld
import Verif.Spec.Bias
import Verif.Spec.Bootstrap
import Verif.Spec.Classification
import Verif.Spec.ContStream
import Verif.Spec.Contextual
import Verif.Spec.Continuous
import Verif.Spec.ContinuousDataset
import Verif.Spec.ContinuousDraws
import Verif.Spec.Draws
import Verif.Spec.EmbStream
import Verif.Spec.Embed
import Verif.Spec.EmbedDraws
import Verif.Spec.Environment
import Verif.Spec.EstimatedPropensities
import Verif.Spec.ExploreWorld
import Verif.Spec.Formulas
import Verif.Spec.Gumbel
import Verif.Spec.Influence
import Verif.Spec.Inputs
import Verif.Spec.JoinedLogs
import Verif.Spec.LearnStream
import Verif.Spec.LinearWorld
import Verif.Spec.LogStream
import Verif.Spec.Meta
import Verif.Spec.Misses
import Verif.Spec.Multi
import Verif.Spec.MultiNormal
import Verif.Spec.MultiPrecision
import Verif.Spec.MultiResampling
import Verif.Spec.MultiStream
import Verif.Spec.Normality
import Verif.Spec.Offline
import Verif.Spec.Ope
import Verif.Spec.Policy
import Verif.Spec.PolicyChoice
import Verif.Spec.PolicyMixture
import Verif.Spec.Prob
import Verif.Spec.Process
import Verif.Spec.Regression
import Verif.Spec.Renaming
import Verif.Spec.ReplayWorld
import Verif.Spec.Resampling
import Verif.Spec.RewardFunction
import Verif.Spec.RewardUnit
import Verif.Spec.RoundTerms
import Verif.Spec.RoundTermsOthers
import Verif.Spec.Rounds
import Verif.Spec.Selection
import Verif.Spec.Simulator
import Verif.Spec.Slate
import Verif.Spec.SlateDataset
import Verif.Spec.SlateDraws
import Verif.Spec.SlateInteraction
import Verif.Spec.SlateProcess
import Verif.Spec.SlateRegression
import Verif.Spec.SlateStream
import Verif.Spec.StreamBias
import Verif.Spec.ThompsonWorld
import Verif.Spec.TruncNormal
import Verif.Spec.TunedConsistency
import Verif.Spec.Tuning
import Verif.Spec.Variance
import Verif.Lemmas.Accept
import Verif.Lemmas.AdaptedLaw
import Verif.Lemmas.Avg
import Verif.Lemmas.BanditAlmostSure
import Verif.Lemmas.BanditLimit
import Verif.Lemmas.BanditPlay
import Verif.Lemmas.Bernstein
import Verif.Lemmas.BetaLaw
import Verif.Lemmas.Bootstrap
import Verif.Lemmas.BootstrapArray
import Verif.Lemmas.BootstrapCount
import Verif.Lemmas.BootstrapLaw
import Verif.Lemmas.CentralCount
import Verif.Lemmas.Checks
import Verif.Lemmas.Classification
import Verif.Lemmas.ContStream
import Verif.Lemmas.Contextual
import Verif.Lemmas.ContinuousDataset
import Verif.Lemmas.CtxPlay
import Verif.Lemmas.Dataset
import Verif.Lemmas.Draws
import Verif.Lemmas.Elliptic
import Verif.Lemmas.EmbStream
import Verif.Lemmas.Embed
import Verif.Lemmas.EmpiricalArray
import Verif.Lemmas.EmpiricalChar
import Verif.Lemmas.Estimators
import Verif.Lemmas.IidClt
import Verif.Lemmas.LinExplore
import Verif.Lemmas.LinExploreRegret
import Verif.Lemmas.LinUcb
import Verif.Lemmas.LinUcbNoise
import Verif.Lemmas.LinUcbRegret
import Verif.Lemmas.LogStream
import Verif.Lemmas.MeanSquares
import Verif.Lemmas.Meta
import Verif.Lemmas.Multi
import Verif.Lemmas.MultiStream
import Verif.Lemmas.Numpy
import Verif.Lemmas.Offline
import Verif.Lemmas.OrthogonalLaw
import Verif.Lemmas.PlackettLuce
import Verif.Lemmas.Policy
import Verif.Lemmas.Prob
import Verif.Lemmas.RankLaw
import Verif.Lemmas.RatioClt
import Verif.Lemmas.Regression
import Verif.Lemmas.ResamplingExists
import Verif.Lemmas.Rounds
import Verif.Lemmas.Sampler
import Verif.Lemmas.SelfNormalized
import Verif.Lemmas.Simulator
import Verif.Lemmas.Slate
import Verif.Lemmas.SlateDataset
import Verif.Lemmas.SlateDraws
import Verif.Lemmas.SlateStream
import Verif.Lemmas.SlateValues
import Verif.Lemmas.Smoothing
import Verif.Lemmas.StrataBootstrap
import Verif.Lemmas.StrataClt
import Verif.Lemmas.StrataNormal
import Verif.Lemmas.Student
import Verif.Lemmas.Tails
import Verif.Lemmas.ThompsonAlmostSure
import Verif.Lemmas.ThompsonLimit
import Verif.Lemmas.ThompsonPlay
import Verif.Lemmas.TruncNormal
import Verif.Lemmas.Variance
import Verif.Props.AsymptoticNormality
import Verif.Props.AxisChange
import Verif.Props.BernsteinCoverage
import Verif.Props.Bias
import Verif.Props.BiasCoverage
import Verif.Props.Bootstrap
import Verif.Props.BootstrapCoverage
import Verif.Props.BootstrapMulti
import Verif.Props.Classification
import Verif.Props.Confidence
import Verif.Props.Consistency
import Verif.Props.ConsistencyContinuous
import Verif.Props.ConsistencyEmbed
import Verif.Props.ConsistencyMulti
import Verif.Props.ConsistencySlate
import Verif.Props.Constructors
import Verif.Props.ContextFree
import Verif.Props.Contextual
import Verif.Props.Continuous
import Verif.Props.ContinuousDataset
import Verif.Props.CrossFit
import Verif.Props.CrossFitPrecision
import Verif.Props.DatasetInit
import Verif.Props.Drifter
import Verif.Props.Embed
import Verif.Props.EmbedDataset
import Verif.Props.EmbedInterval
import Verif.Props.EmbedLearned
import Verif.Props.EmbedPlots
import Verif.Props.EmbedReal
import Verif.Props.EmbedSelect
import Verif.Props.EndToEnd
import Verif.Props.EndToEndContinuous
import Verif.Props.EndToEndEmbed
import Verif.Props.EndToEndMulti
import Verif.Props.EndToEndSlate
import Verif.Props.Environment
import Verif.Props.EpsilonGreedyLearns
import Verif.Props.ErrorKinds
import Verif.Props.EstimatedPropensities
import Verif.Props.EstimatorApi
import Verif.Props.EstimatorLaws
import Verif.Props.EstimatorValues
import Verif.Props.Formulas
import Verif.Props.FrontEnd
import Verif.Props.HighConfidence
import Verif.Props.Influence
import Verif.Props.InfluenceMore
import Verif.Props.InputChecks
import Verif.Props.JoinedLogs
import Verif.Props.JoinedMore
import Verif.Props.JoinedSlates
import Verif.Props.Kernels
import Verif.Props.LearnStream
import Verif.Props.LearnerSelect
import Verif.Props.LinExplore
import Verif.Props.LinUcb
import Verif.Props.LinUcbNoise
import Verif.Props.Meta
import Verif.Props.ModelInputs
import Verif.Props.Mse
import Verif.Props.Multi
import Verif.Props.MultiClass
import Verif.Props.MultiLogger
import Verif.Props.MultiPrecision
import Verif.Props.NeuralFit
import Verif.Props.NeuralInit
import Verif.Props.NeuralNet
import Verif.Props.NeuralPolicy
import Verif.Props.NormalCascade
import Verif.Props.NormalContinuous
import Verif.Props.NormalEmbed
import Verif.Props.NormalMulti
import Verif.Props.NormalSlate
import Verif.Props.Offline
import Verif.Props.OpeInit
import Verif.Props.PlackettLuce
import Verif.Props.Plots
import Verif.Props.PlotsOthers
import Verif.Props.PolicyChoice
import Verif.Props.PolicyInit
import Verif.Props.PolicyMixture
import Verif.Props.PolicyMixtureMore
import Verif.Props.QLearnerValue
import Verif.Props.RealDataset
import Verif.Props.Regression
import Verif.Props.Renaming
import Verif.Props.RenamingMulti
import Verif.Props.Replay
import Verif.Props.ReplayEstimate
import Verif.Props.ReplayFaithful
import Verif.Props.Reports
import Verif.Props.RewardFunction
import Verif.Props.RewardLaw
import Verif.Props.RewardUnit
import Verif.Props.RewardUnitMore
import Verif.Props.SelfNormalisedCoverage
import Verif.Props.Simulator
import Verif.Props.Slate
import Verif.Props.SlateBatch
import Verif.Props.SlateCascade
import Verif.Props.SlateChecks
import Verif.Props.SlateInteraction
import Verif.Props.SlateNamed
import Verif.Props.SlatePolicy
import Verif.Props.SlateRegression
import Verif.Props.SlateReward
import Verif.Props.SlateTruth
import Verif.Props.SlateUnbiased
import Verif.Props.SlopeOracle
import Verif.Props.Student
import Verif.Props.Synthetic
import Verif.Props.Tails
import Verif.Props.TailsBias
import Verif.Props.TailsCascade
import Verif.Props.TailsMulti
import Verif.Props.TailsReplay
import Verif.Props.ThompsonLearns
import Verif.Props.TrainingGradient
import Verif.Props.TunedConsistency
import Verif.Props.Tuning
import Verif.Props.Unbiased
import Verif.Props.Utils
import Verif.Props.Variance
