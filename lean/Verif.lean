import Verif.Act.Model
import Verif.Act.Props
import Verif.Algo.GradHelper
import Verif.Algo.LemmasBellman
import Verif.Algo.LemmasEpisodes
import Verif.Algo.LemmasLoss
import Verif.Algo.LemmasValue
import Verif.Algo.Losses
import Verif.Algo.Names
import Verif.Algo.NamesLemmas
import Verif.Algo.Prob
import Verif.Algo.PropsBellman
import Verif.Algo.PropsEpisodes
import Verif.Algo.PropsEps
import Verif.Algo.PropsGail
import Verif.Algo.PropsGrad
import Verif.Algo.PropsGradient
import Verif.Algo.PropsNames
import Verif.Algo.PropsOrder
import Verif.Algo.PropsProb
import Verif.Algo.PropsReported
import Verif.Algo.PropsSched
import Verif.Algo.PropsTrain
import Verif.Algo.PropsValue
import Verif.Algo.Reported
import Verif.Algo.Sched
import Verif.Algo.Spec
import Verif.Algo.Train
import Verif.Algo.Value
import Verif.Ars.Lemmas
import Verif.Ars.Model
import Verif.Ars.Props
import Verif.Ars.PropsAct
import Verif.Ars.PropsAscent
import Verif.Ars.PropsRound
import Verif.Ars.PropsStep
import Verif.Ars.PropsTop
import Verif.Ars.PropsUpdate
import Verif.Ars.Round
import Verif.Ars.RoundLemmas
import Verif.Ars.RoundSpec
import Verif.Ars.Spec
import Verif.Ars.Update
import Verif.Assign.Cost
import Verif.Assign.Model
import Verif.Assign.Props
import Verif.Assign.PropsCost
import Verif.Auto.Launcher
import Verif.Auto.Lemmas
import Verif.Auto.Lockstep
import Verif.Auto.Model
import Verif.Auto.Plugin
import Verif.Auto.Props
import Verif.Auto.PropsLaunch
import Verif.Auto.PropsLockstep
import Verif.Auto.PropsPlugin
import Verif.Auto.Spec
import Verif.Base.Dict
import Verif.Base.Err
import Verif.Batch.Lemmas
import Verif.Batch.Model
import Verif.Batch.Props
import Verif.Batch.PropsTarget
import Verif.Batch.PropsWeight
import Verif.Build.Algs
import Verif.Build.Lemmas
import Verif.Build.LemmasAlgs
import Verif.Build.LemmasEpisode
import Verif.Build.LemmasFail
import Verif.Build.LemmasStore
import Verif.Build.LemmasValid
import Verif.Build.Model
import Verif.Build.Props
import Verif.Build.PropsAlgs
import Verif.Build.Spec
import Verif.Build.SpecAlgs
import Verif.Checker.Hooks
import Verif.Checker.Model
import Verif.Checker.Props
import Verif.Checker.PropsHooks
import Verif.Config.Lemmas
import Verif.Config.LemmasFile
import Verif.Config.LemmasNormal
import Verif.Config.Model
import Verif.Config.ModelFile
import Verif.Config.Props
import Verif.Config.PropsFile
import Verif.Config.PropsNormal
import Verif.Config.Spec
import Verif.Config.SpecFile
import Verif.Config.SpecNormal
import Verif.Device.Heap
import Verif.Device.HeapLemmas
import Verif.Device.HeapSpec
import Verif.Device.Lemmas
import Verif.Device.Model
import Verif.Device.Props
import Verif.Device.PropsHeap
import Verif.Device.Spec
import Verif.Dirs.Lemmas
import Verif.Dirs.Model
import Verif.Dirs.Props
import Verif.Dist.History
import Verif.Dist.HistoryAny
import Verif.Dist.Lemmas
import Verif.Dist.LemmasAny
import Verif.Dist.LemmasGroup
import Verif.Dist.Mean
import Verif.Dist.Model
import Verif.Dist.ModelGroup
import Verif.Dist.Props
import Verif.Dist.PropsAny
import Verif.Dist.PropsGroup
import Verif.Dist.PropsShare
import Verif.Dist.PropsUniform
import Verif.Dist.PropsWrite
import Verif.Dist.Spec
import Verif.Effects.Lemmas
import Verif.Effects.Model
import Verif.Effects.Props
import Verif.Effects.PropsCount
import Verif.Effects.Spec
import Verif.EnvWrap.Lemmas
import Verif.EnvWrap.LemmasCall
import Verif.EnvWrap.Model
import Verif.EnvWrap.ModelMore
import Verif.EnvWrap.Props57
import Verif.EnvWrap.Props58
import Verif.EnvWrap.Props58Hist
import Verif.EnvWrap.PropsMore
import Verif.EnvWrap.Spec
import Verif.Event.Model
import Verif.Event.Props
import Verif.Finalize.Lemmas
import Verif.Finalize.Model
import Verif.Finalize.Props
import Verif.Finalize.Spec
import Verif.Frames.Eval
import Verif.Frames.Lemmas
import Verif.Frames.Lemmas2
import Verif.Frames.Lemmas3
import Verif.Frames.Lemmas4
import Verif.Frames.Model
import Verif.Frames.Props
import Verif.Frames.PropsMore
import Verif.Frames.Spec
import Verif.Frames.Table
import Verif.Group.Collective
import Verif.Group.Helper
import Verif.Group.HelperLemmas
import Verif.Group.Lemmas
import Verif.Group.Props
import Verif.Group.Services
import Verif.Group.Spec
import Verif.Group.Total
import Verif.Helper.Model
import Verif.Helper.Props
import Verif.Impala.Lemmas
import Verif.Impala.LemmasEpisodes
import Verif.Impala.Model
import Verif.Impala.Props
import Verif.Impala.PropsClosed
import Verif.Impala.PropsEpisodes
import Verif.Impala.Spec
import Verif.Impala.SpecEpisodes
import Verif.Launch.Lemmas
import Verif.Launch.Model
import Verif.Launch.Props
import Verif.Launch.Table
import Verif.Load.Lemmas
import Verif.Load.Model
import Verif.Load.Props
import Verif.Load.PropsState
import Verif.Load.Spec
import Verif.Load.State
import Verif.Maddpg.Concat
import Verif.Maddpg.Model
import Verif.Maddpg.Props
import Verif.Maddpg.Props87
import Verif.Maddpg.PropsConcat
import Verif.Media.Lemmas
import Verif.Media.Model
import Verif.Media.Props
import Verif.Media.PropsShow
import Verif.Media.PropsSubproc
import Verif.Media.Show
import Verif.Media.ShowLemmas
import Verif.Media.Subproc
import Verif.Media.SubprocLemmas
import Verif.Noise.Cancel
import Verif.Noise.Lemmas
import Verif.Noise.Model
import Verif.Noise.ModelAdjust
import Verif.Noise.Props
import Verif.Noise.PropsAdjust
import Verif.Noise.PropsCancel
import Verif.Noise.PropsExact
import Verif.Noise.PropsOu
import Verif.Pool.Callbacks
import Verif.Pool.CallbacksLemmas
import Verif.Pool.CallbacksSpec
import Verif.Pool.IMapLemmas
import Verif.Pool.Lemmas
import Verif.Pool.Loop
import Verif.Pool.LoopLemmas
import Verif.Pool.LoopSpec
import Verif.Pool.Model
import Verif.Pool.Props
import Verif.Pool.PropsCallbacks
import Verif.Pool.PropsLoop
import Verif.Pool.PropsWorkers
import Verif.Pool.RouteLemmas
import Verif.Pool.Spec
import Verif.Pool.Workers
import Verif.Pool.WorkersLemmas
import Verif.PoolLife.Fair
import Verif.PoolLife.FairEnd
import Verif.PoolLife.FairLemmas
import Verif.PoolLife.FairTask
import Verif.PoolLife.Iter
import Verif.PoolLife.IterLemmas
import Verif.PoolLife.Lemmas
import Verif.PoolLife.Live
import Verif.PoolLife.Model
import Verif.PoolLife.Props
import Verif.PoolLife.PropsFair
import Verif.Precision.Adapt
import Verif.Precision.AdaptLemmas
import Verif.Precision.Advantage
import Verif.Precision.AdvantageLemmas
import Verif.Precision.Epsilon
import Verif.Precision.EpsilonLemmas
import Verif.Precision.EpsilonLemmas2
import Verif.Precision.Lemmas
import Verif.Precision.Model
import Verif.Precision.Ou
import Verif.Precision.OuLemmas
import Verif.Precision.Props
import Verif.Precision.PropsAdapt
import Verif.Precision.PropsAdvantage
import Verif.Precision.PropsEpsilon
import Verif.Precision.PropsOuF
import Verif.Precision.Spec
import Verif.Prio.History
import Verif.Prio.Lemmas
import Verif.Prio.Model
import Verif.Prio.Props
import Verif.Prio.PropsInverse
import Verif.Prio.PropsRound
import Verif.Prio.PropsShare
import Verif.Prio.Round
import Verif.Prio.RoundDouble
import Verif.Prio.RoundLemmas
import Verif.Prio.RoundSpec
import Verif.Prio.ShareLemmas
import Verif.Prio.Spec
import Verif.Prio.TreeLemmas
import Verif.Proc.Model
import Verif.Proc.Props
import Verif.Project.Lemmas
import Verif.Project.Loss
import Verif.Project.Model
import Verif.Project.Props
import Verif.Project.PropsLoss
import Verif.Project.PropsRound
import Verif.Project.Round
import Verif.Project.RoundLemmas
import Verif.Project.RoundShare
import Verif.Project.RoundSpec
import Verif.Project.RoundTarget
import Verif.Queue.Model
import Verif.Queue.Props
import Verif.Replay.Count
import Verif.Replay.Lemmas
import Verif.Replay.MapLemmas
import Verif.Replay.Model
import Verif.Replay.Props
import Verif.Replay.PropsRounds
import Verif.Replay.PropsUniform
import Verif.Replay.Rounds
import Verif.Replay.Spec
import Verif.ResNet.Lemmas
import Verif.ResNet.Model
import Verif.ResNet.Props
import Verif.Returns.Lemmas
import Verif.Returns.LemmasEpisodes
import Verif.Returns.Model
import Verif.Returns.Props
import Verif.Returns.PropsEpisodes
import Verif.Returns.PropsMix
import Verif.Returns.PropsRound
import Verif.Returns.Round
import Verif.Returns.RoundLemmas
import Verif.Returns.Spec
import Verif.Returns.SpecEpisodes
import Verif.Rnn.DistPrio
import Verif.Rnn.History
import Verif.Rnn.Lemmas
import Verif.Rnn.LemmasUniform
import Verif.Rnn.Model
import Verif.Rnn.Props
import Verif.Rnn.PropsDist
import Verif.Rnn.PropsDistUniform
import Verif.Rnn.PropsUniform
import Verif.Rnn.Spec
import Verif.SafeCall.Model
import Verif.SafeCall.Props
import Verif.Server.GradLemmas
import Verif.Server.GradMap
import Verif.Server.GradModel
import Verif.Server.GradSpec
import Verif.Server.Lemmas
import Verif.Server.Model
import Verif.Server.Net
import Verif.Server.Props
import Verif.Server.PropsGrad
import Verif.Server.PropsMean
import Verif.Server.PropsSampler
import Verif.Server.Spec
import Verif.Sizes.Lemmas
import Verif.Sizes.LemmasDepth
import Verif.Sizes.LemmasShares
import Verif.Sizes.Model
import Verif.Sizes.Props
import Verif.Sizes.Spec
import Verif.Step.Lemmas
import Verif.Step.LemmasOne
import Verif.Step.LemmasPool
import Verif.Step.Model
import Verif.Step.Props
import Verif.Step.PropsHook
import Verif.Step.PropsPool
import Verif.Step.Spec
import Verif.Trans.Lemmas
import Verif.Trans.Model
import Verif.Trans.Props
import Verif.Trans.PropsBase
import Verif.Trans.Spec
import Verif.Trpo.FlatGrad
import Verif.Trpo.Fvp
import Verif.Trpo.Kl
import Verif.Trpo.LemmasCg
import Verif.Trpo.LemmasFvp
import Verif.Trpo.LemmasStep
import Verif.Trpo.Model
import Verif.Trpo.Props
import Verif.Trpo.PropsCg
import Verif.Trpo.PropsFlat
import Verif.Trpo.PropsFvp
import Verif.Trpo.PropsStep
import Verif.Trpo.Step
import Verif.Update.Model
import Verif.Update.Props
import Verif.Update.PropsTrack
import Verif.Wire.Lemmas
import Verif.Wire.Model
import Verif.Wire.Props
import Verif.Wire.PropsMake
import Verif.Wire.Spec
import Verif.World.Barrier
import Verif.World.BarrierLemmas
import Verif.World.Create
import Verif.World.CreateLemmas
import Verif.World.Destroy
import Verif.World.Lemmas
import Verif.World.Life
import Verif.World.LifeLemmas
import Verif.World.LifeSpec
import Verif.World.Local
import Verif.World.Model
import Verif.World.Props
import Verif.World.PropsCreate
import Verif.World.PropsDestroy
import Verif.World.PropsLife
import Verif.World.PropsLocal
import Verif.World.PropsRounds
import Verif.World.Rounds
import Verif.World.RoundsLemmas
import Verif.World.RoundsSpec
import Verif.World.Spec
