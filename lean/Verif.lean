import Verif.Props.SegTree
import Verif.Props.Buffer
import Verif.Props.Manager
import Verif.Props.Prio
import Verif.Props.Her
import Verif.Props.Returns
import Verif.Props.Policy
import Verif.Props.MultiAgent
import Verif.Props.Batch
import Verif.Props.Hdf5
import Verif.Props.VecEnv
import Verif.Props.Wrappers
import Verif.Props.Stats
import Verif.Props.Collector
import Verif.Props.AsyncCollector
import Verif.Props.Trainer
import Verif.Props.EnvWrappers
import Verif.Props.TrustRegion
import Verif.Props.Ppo
import Verif.Props.QTarget
import Verif.Props.ActorCritic
import Verif.Props.TrainerSucceeds
import Verif.Props.TrainerOnpolicy
import Verif.Props.Psrl
import Verif.Props.Offline
import Verif.Props.Logger
import Verif.Props.Net
import Verif.Props.NetOut
import Verif.Props.Optim
import Verif.Props.Schedule
import Verif.Props.Experiment
import Verif.Props.Factories
import Verif.Props.Params
import Verif.Props.Evaluation
import Verif.Props.BatchTree
import Verif.Props.BatchOps
import Verif.Props.FromData
import Verif.Props.OnPolicy
import Verif.Props.Squash
import Verif.Props.Imitation
import Verif.Props.PrioUpdate
import Verif.Props.Modules
import Verif.Props.Pipeline
import Verif.Props.PettingZoo
import Verif.Props.Timing
import Verif.Props.Dist
import Verif.Props.InfoBatch
import Verif.Props.HerManager
import Verif.Props.CollectorUses
import Verif.Props.AsyncPipeline
import Verif.Props.CachedPipeline
import Verif.Props.ShMem
import Verif.Props.LossStats
import Verif.Props.EnvAttr
import Verif.Props.EnvFactory
import Verif.Props.EnvClose
import Verif.Props.EpisodeHook
import Verif.Props.InfoStore
import Verif.Props.Builder
import Verif.Props.BufferCopy
import Verif.Props.MultiAgentTargets
import Verif.Props.SampleDist
import Verif.Props.Explore
import Verif.Props.HerGoal
import Verif.Props.Rainbow
import Verif.Props.VecEnvFair
import Verif.Props.ComputeAction
import Verif.Props.PolicyGradient
import Verif.Props.QLearning
import Verif.Props.Minibatch
import Verif.Props.Advantage
import Verif.Props.SoftQ
import Verif.Props.C51
import Verif.Props.Fitting
import Verif.Props.Quantile
import Verif.Props.PsrlLimit
import Verif.Model.Critics
import Verif.Props.Critics
import Verif.Props.Exploring
import Verif.Model.CqlLagrange
import Verif.Props.CqlLagrange
import Verif.Model.Vae
import Verif.Props.Vae
import Verif.Props.WandbRun
import Verif.Props.StatsLimit
import Verif.Props.Redq
import Verif.Props.Natural
import Verif.Model.Natural
import Verif.Props.Fraction
import Verif.Model.Fraction
import Verif.Props.Learn
import Verif.Model.Learn
import Verif.Props.CrrGrad
import Verif.Props.Conservative
import Verif.Props.OuLaw
import Verif.Props.ApplyValues
import Verif.Model.ApplyValues
import Verif.Props.CriticFit
import Verif.Model.SacLoss
import Verif.Props.SacActor
import Verif.Props.SacCritics
import Verif.Props.SacCriticsExample
import Verif.Props.PolicyIteration
import Verif.Props.PolicyIterationExample
import Verif.Props.DpgGradient
import Verif.Model.UniformAction
import Verif.Props.UniformAction
import Verif.Props.PolicyIterationApprox
import Verif.Props.HerBias
import Verif.Model.DiscreteBcq
import Verif.Props.DiscreteBcq
import Verif.Props.TrpoReturn
import Verif.Model.Bdq
import Verif.Props.Bdq
import Verif.Model.Td3Bc
import Verif.Props.Td3Bc
import Verif.Lemmas.LeastSquares
import Verif.Props.Nstep
import Verif.Props.TargetBias
import Verif.Props.PpoReturn
import Verif.Props.DiscreteCql
import Verif.Props.CrrActor
import Verif.Props.EndToEnd
import Verif.Props.Curiosity
import Verif.Props.ValueClip
import Verif.Props.EndToEndMore
import Verif.Props.Repeat
import Verif.Model.Redq
import Verif.Props.RedqCritics
import Verif.Props.Tested
import Verif.Props.PrioEndToEnd
import Verif.Props.VecCollector
import Verif.Props.VecCollectorAny
import Verif.Props.TestedReturns
import Verif.Props.TestedSoon
import Verif.Props.CollectorEven
import Verif.Props.CollectorUnseen
import Verif.Props.AsyncUnseen
import Verif.Props.CollectorUnbiased
import Verif.Props.AsyncBiased
import Verif.Props.BestOptimistic
