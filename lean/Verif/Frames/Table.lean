import Verif.Base.Err

/-!
# Constructing frameworks from configurations (`generate_config`, `init_from_config` and `__init__` of `machin/frame/algorithms/*.py`)

Tables: the parameters of every constructor, the parameters its own code reads, the arguments of its call of the constructor of its superclass, and the keys
of the generated configurations. The first are lists of the names in the code, in camel case.
-/

namespace Machin.Frames

/-- Names of parameters and keys of configurations; `other` is any name that is used nowhere. -/
inductive Key
  | qnet | qnetTarget | optimizer | criterion | lrScheduler | lrSchedulerArgs | lrSchedulerKwargs | batchSize
  | epsilonDecay | updateRate | updateSteps | learningRate | discount | gradientMax | replaySize | replayDevice
  | replayBuffer | mode | visualize | visualizeDir | valueMin | valueMax | rewardFutureSteps | actor
  | actorTarget | critic | criticTarget | actorLearningRate | criticLearningRate | qIncreaseRate | qDecreaseRate | critic2
  | critic2Target | actorUpdateTimes | criticUpdateTimes | entropyWeight | valueWeight | gaeLambda | normalizeAdvantage | gradServer
  | surrogateLossClip | klMaxDelta | damping | lineSearchBacktracks | conjugateEps | conjugateIterations | conjugateResThreshold | hvMode
  | targetEntropy | initialEntropyAlpha | alphaLearningRate | apexGroup | modelServer | impalaGroup | iswClipC | iswClipRho
  | arsGroup | noiseStdDev | noiseSize | rolloutNum | usedRolloutNum | normalizeState | noiseSeed | sampleSeed
  | actors | actorTargets | critics | criticTargets | criticVisibleActors | subPolicyNum | useJit | poolType
  | poolSize | discriminator | constrainedPolicyOptimization | discriminatorUpdateTimes | discriminatorLearningRate | expertReplaySize | expertReplayDevice | expertReplayBuffer
  | models | modelArgs | modelKwargs | criterionArgs | criterionKwargs | gradServerGroupName | gradServerMembers | learnerProcessNumber
  | modelServerGroupName | modelServerMembers | apexGroupName | apexMembers | impalaGroupName | impalaMembers | arsGroupName | arsMembers
  | ppoConfig | trpoConfig | expertTrajectoryPath
  | other (n : Nat)
deriving DecidableEq, Repr

/-- The frameworks (algorithms/__init__.py). -/
inductive Algo
  | dqn | dqnPer | rainbow | ddpg | hddpg | td3 | ddpgPer | a2c | a3c | ppo | trpo | sac | dqnApex | ddpgApex | impala | ars | maddpg | gail
deriving DecidableEq, Repr

/-- An argument of the call `super().__init__(…)`: a parameter, a constant (its text), `p[:2] if p is not None else None` (td3.py), or
`PrioritizedBuffer(replay_size, replay_device) if replay_buffer is None else replay_buffer`. -/
inductive Arg
  | param (p : Key)
  | text (s : String)
  | firstTwo (p : Key)
  | buffer
deriving DecidableEq, Repr

/-- A constructor: positional parameters, keyword parameters with the text of their defaults, the parameters that its code reads apart from passing them to
the superclass, and the arguments it passes to the superclass. All constructors end with `*_` and `**__` (further arguments are dropped). -/
structure Level where
  pos : List Key
  kw : List (Key × String)
  uses : List Key
  supPos : List Arg
  supKw : List (Key × Arg)

/-- `DQN.__init__` (dqn.py:30-213). -/
def dqnLevel : Level where
  pos := [.qnet, .qnetTarget, .optimizer, .criterion]
  kw := [
    (.lrScheduler, "None"), (.lrSchedulerArgs, "None"), (.lrSchedulerKwargs, "None"), (.batchSize, "100"), (.epsilonDecay, "0.9999"),
    (.updateRate, "0.005"), (.updateSteps, "None"), (.learningRate, "0.001"), (.discount, "0.99"), (.gradientMax, "np.inf"), (.replaySize, "500000"),
    (.replayDevice, "'cpu'"), (.replayBuffer, "None"), (.mode, "'double'"), (.visualize, "False"), (.visualizeDir, "''")]
  uses := [
    .qnet, .qnetTarget, .optimizer, .criterion, .lrScheduler, .lrSchedulerArgs, .lrSchedulerKwargs, .batchSize, .epsilonDecay, .updateRate,
    .updateSteps, .learningRate, .discount, .gradientMax, .replaySize, .replayDevice, .replayBuffer, .mode, .visualize, .visualizeDir]
  supPos := []
  supKw := []

/-- `DQNPer.__init__` (dqn_per.py:22-87). -/
def dqnPerLevel : Level where
  pos := [.qnet, .qnetTarget, .optimizer, .criterion]
  kw := [
    (.lrScheduler, "None"), (.lrSchedulerArgs, "None"), (.lrSchedulerKwargs, "None"), (.batchSize, "100"), (.epsilonDecay, "0.9999"),
    (.updateRate, "0.005"), (.updateSteps, "None"), (.learningRate, "0.001"), (.discount, "0.99"), (.gradientMax, "np.inf"), (.replaySize, "500000"),
    (.replayDevice, "'cpu'"), (.replayBuffer, "None"), (.visualize, "False"), (.visualizeDir, "''")]
  uses := []
  supPos := [.param .qnet, .param .qnetTarget, .param .optimizer, .param .criterion]
  supKw := [
    (.lrScheduler, .param .lrScheduler), (.lrSchedulerArgs, .param .lrSchedulerArgs), (.lrSchedulerKwargs, .param .lrSchedulerKwargs),
    (.batchSize, .param .batchSize), (.epsilonDecay, .param .epsilonDecay), (.updateRate, .param .updateRate), (.updateSteps, .param .updateSteps),
    (.learningRate, .param .learningRate), (.discount, .param .discount), (.gradientMax, .param .gradientMax), (.replaySize, .param .replaySize),
    (.replayDevice, .param .replayDevice), (.replayBuffer, .buffer), (.mode, .text "'double'"), (.visualize, .param .visualize),
    (.visualizeDir, .param .visualizeDir)]

/-- `RAINBOW.__init__` (rainbow.py:12-111). -/
def rainbowLevel : Level where
  pos := [.qnet, .qnetTarget, .optimizer, .valueMin, .valueMax]
  kw := [
    (.lrScheduler, "None"), (.lrSchedulerArgs, "None"), (.lrSchedulerKwargs, "None"), (.batchSize, "100"), (.epsilonDecay, "0.9999"),
    (.updateRate, "0.001"), (.updateSteps, "None"), (.learningRate, "0.001"), (.discount, "0.99"), (.gradientMax, "np.inf"),
    (.rewardFutureSteps, "3"), (.replaySize, "500000"), (.replayDevice, "'cpu'"), (.replayBuffer, "None"), (.visualize, "False"),
    (.visualizeDir, "''")]
  uses := [.valueMin, .valueMax, .rewardFutureSteps]
  supPos := [.param .qnet, .param .qnetTarget, .param .optimizer, .text "lambda: None"]
  supKw := [
    (.learningRate, .param .learningRate), (.lrScheduler, .param .lrScheduler), (.lrSchedulerArgs, .param .lrSchedulerArgs),
    (.lrSchedulerKwargs, .param .lrSchedulerKwargs), (.batchSize, .param .batchSize), (.epsilonDecay, .param .epsilonDecay),
    (.updateRate, .param .updateRate), (.updateSteps, .param .updateSteps), (.discount, .param .discount), (.gradientMax, .param .gradientMax),
    (.replaySize, .param .replaySize), (.replayDevice, .param .replayDevice), (.replayBuffer, .buffer), (.visualize, .param .visualize),
    (.visualizeDir, .param .visualizeDir)]

/-- `DDPG.__init__` (ddpg.py:39-177). -/
def ddpgLevel : Level where
  pos := [.actor, .actorTarget, .critic, .criticTarget, .optimizer, .criterion]
  kw := [
    (.lrScheduler, "None"), (.lrSchedulerArgs, "None"), (.lrSchedulerKwargs, "None"), (.batchSize, "100"), (.updateRate, "0.001"),
    (.updateSteps, "None"), (.actorLearningRate, "0.0005"), (.criticLearningRate, "0.001"), (.discount, "0.99"), (.gradientMax, "np.inf"),
    (.replaySize, "500000"), (.replayDevice, "'cpu'"), (.replayBuffer, "None"), (.visualize, "False"), (.visualizeDir, "''")]
  uses := [
    .actor, .actorTarget, .critic, .criticTarget, .optimizer, .criterion, .lrScheduler, .lrSchedulerArgs, .lrSchedulerKwargs, .batchSize,
    .updateRate, .updateSteps, .actorLearningRate, .criticLearningRate, .discount, .gradientMax, .replaySize, .replayDevice, .replayBuffer,
    .visualize, .visualizeDir]
  supPos := []
  supKw := []

/-- `HDDPG.__init__` (hddpg.py:10-96). -/
def hddpgLevel : Level where
  pos := [.actor, .actorTarget, .critic, .criticTarget, .optimizer, .criterion]
  kw := [
    (.lrScheduler, "None"), (.lrSchedulerArgs, "None"), (.lrSchedulerKwargs, "None"), (.batchSize, "100"), (.updateRate, "0.005"),
    (.updateSteps, "None"), (.actorLearningRate, "0.0005"), (.criticLearningRate, "0.001"), (.discount, "0.99"), (.gradientMax, "np.inf"),
    (.qIncreaseRate, "1.0"), (.qDecreaseRate, "1.0"), (.replaySize, "500000"), (.replayDevice, "'cpu'"), (.replayBuffer, "None"),
    (.visualize, "False"), (.visualizeDir, "''")]
  uses := [.qIncreaseRate, .qDecreaseRate]
  supPos := [.param .actor, .param .actorTarget, .param .critic, .param .criticTarget, .param .optimizer, .param .criterion]
  supKw := [
    (.lrScheduler, .param .lrScheduler), (.lrSchedulerArgs, .param .lrSchedulerArgs), (.lrSchedulerKwargs, .param .lrSchedulerKwargs),
    (.batchSize, .param .batchSize), (.updateRate, .param .updateRate), (.updateSteps, .param .updateSteps),
    (.actorLearningRate, .param .actorLearningRate), (.criticLearningRate, .param .criticLearningRate), (.discount, .param .discount),
    (.gradientMax, .param .gradientMax), (.replaySize, .param .replaySize), (.replayDevice, .param .replayDevice),
    (.replayBuffer, .param .replayBuffer), (.visualize, .param .visualize), (.visualizeDir, .param .visualizeDir)]

/-- `TD3.__init__` (td3.py:21-130). -/
def td3Level : Level where
  pos := [.actor, .actorTarget, .critic, .criticTarget, .critic2, .critic2Target, .optimizer, .criterion]
  kw := [
    (.lrScheduler, "None"), (.lrSchedulerArgs, "None"), (.lrSchedulerKwargs, "None"), (.batchSize, "100"), (.updateRate, "0.001"),
    (.updateSteps, "None"), (.actorLearningRate, "0.0005"), (.criticLearningRate, "0.001"), (.discount, "0.99"), (.gradientMax, "np.inf"),
    (.replaySize, "500000"), (.replayDevice, "'cpu'"), (.replayBuffer, "None"), (.visualize, "False"), (.visualizeDir, "''")]
  uses := [.critic2, .critic2Target, .optimizer, .lrScheduler, .lrSchedulerArgs, .lrSchedulerKwargs, .criticLearningRate]
  supPos := [.param .actor, .param .actorTarget, .param .critic, .param .criticTarget, .param .optimizer, .param .criterion]
  supKw := [
    (.lrScheduler, .param .lrScheduler), (.lrSchedulerArgs, .firstTwo .lrSchedulerArgs), (.lrSchedulerKwargs, .firstTwo .lrSchedulerKwargs),
    (.batchSize, .param .batchSize), (.updateRate, .param .updateRate), (.updateSteps, .param .updateSteps),
    (.actorLearningRate, .param .actorLearningRate), (.criticLearningRate, .param .criticLearningRate), (.discount, .param .discount),
    (.gradientMax, .param .gradientMax), (.replaySize, .param .replaySize), (.replayDevice, .param .replayDevice),
    (.replayBuffer, .param .replayBuffer), (.visualize, .param .visualize), (.visualizeDir, .param .visualizeDir)]

/-- `DDPGPer.__init__` (ddpg_per.py:22-90). -/
def ddpgPerLevel : Level where
  pos := [.actor, .actorTarget, .critic, .criticTarget, .optimizer, .criterion]
  kw := [
    (.lrScheduler, "None"), (.lrSchedulerArgs, "None"), (.lrSchedulerKwargs, "None"), (.batchSize, "100"), (.updateRate, "0.005"),
    (.updateSteps, "None"), (.actorLearningRate, "0.0005"), (.criticLearningRate, "0.001"), (.discount, "0.99"), (.gradientMax, "np.inf"),
    (.replaySize, "500000"), (.replayDevice, "'cpu'"), (.replayBuffer, "None"), (.visualize, "False"), (.visualizeDir, "''")]
  uses := []
  supPos := [.param .actor, .param .actorTarget, .param .critic, .param .criticTarget, .param .optimizer, .param .criterion]
  supKw := [
    (.lrScheduler, .param .lrScheduler), (.lrSchedulerArgs, .param .lrSchedulerArgs), (.lrSchedulerKwargs, .param .lrSchedulerKwargs),
    (.batchSize, .param .batchSize), (.updateRate, .param .updateRate), (.updateSteps, .param .updateSteps),
    (.actorLearningRate, .param .actorLearningRate), (.criticLearningRate, .param .criticLearningRate), (.discount, .param .discount),
    (.gradientMax, .param .gradientMax), (.replaySize, .param .replaySize), (.replayDevice, .param .replayDevice), (.replayBuffer, .buffer),
    (.visualize, .param .visualize), (.visualizeDir, .param .visualizeDir)]

/-- `A2C.__init__` (a2c.py:28-223). -/
def a2cLevel : Level where
  pos := [.actor, .critic, .optimizer, .criterion]
  kw := [
    (.lrScheduler, "None"), (.lrSchedulerArgs, "None"), (.lrSchedulerKwargs, "None"), (.batchSize, "100"), (.actorUpdateTimes, "5"),
    (.criticUpdateTimes, "10"), (.actorLearningRate, "0.001"), (.criticLearningRate, "0.001"), (.entropyWeight, "None"), (.valueWeight, "0.5"),
    (.gradientMax, "np.inf"), (.gaeLambda, "1.0"), (.discount, "0.99"), (.normalizeAdvantage, "True"), (.replaySize, "500000"),
    (.replayDevice, "'cpu'"), (.replayBuffer, "None"), (.visualize, "False"), (.visualizeDir, "''")]
  uses := [
    .actor, .critic, .optimizer, .criterion, .lrScheduler, .lrSchedulerArgs, .lrSchedulerKwargs, .batchSize, .actorUpdateTimes, .criticUpdateTimes,
    .actorLearningRate, .criticLearningRate, .entropyWeight, .valueWeight, .gradientMax, .gaeLambda, .discount, .normalizeAdvantage, .replaySize,
    .replayDevice, .replayBuffer, .visualize, .visualizeDir]
  supPos := []
  supKw := []

/-- `A3C.__init__` (a3c.py:12-113). -/
def a3cLevel : Level where
  pos := [.actor, .critic, .criterion, .gradServer]
  kw := [
    (.batchSize, "100"), (.actorUpdateTimes, "5"), (.criticUpdateTimes, "10"), (.entropyWeight, "None"), (.valueWeight, "0.5"),
    (.gradientMax, "np.inf"), (.gaeLambda, "1.0"), (.discount, "0.99"), (.normalizeAdvantage, "True"), (.replaySize, "500000"),
    (.replayDevice, "'cpu'"), (.replayBuffer, "None"), (.visualize, "False"), (.visualizeDir, "''")]
  uses := [.gradServer]
  supPos := [.param .actor, .param .critic, .text "FakeOptimizer", .param .criterion]
  supKw := [
    (.batchSize, .param .batchSize), (.actorUpdateTimes, .param .actorUpdateTimes), (.criticUpdateTimes, .param .criticUpdateTimes),
    (.entropyWeight, .param .entropyWeight), (.valueWeight, .param .valueWeight), (.gradientMax, .param .gradientMax),
    (.gaeLambda, .param .gaeLambda), (.discount, .param .discount), (.normalizeAdvantage, .param .normalizeAdvantage),
    (.replaySize, .param .replaySize), (.replayDevice, .param .replayDevice), (.replayBuffer, .param .replayBuffer), (.visualize, .param .visualize),
    (.visualizeDir, .param .visualizeDir)]

/-- `PPO.__init__` (ppo.py:9-102). -/
def ppoLevel : Level where
  pos := [.actor, .critic, .optimizer, .criterion]
  kw := [
    (.lrScheduler, "None"), (.lrSchedulerArgs, "()"), (.lrSchedulerKwargs, "()"), (.batchSize, "100"), (.actorUpdateTimes, "5"),
    (.criticUpdateTimes, "10"), (.actorLearningRate, "0.001"), (.criticLearningRate, "0.001"), (.entropyWeight, "None"), (.valueWeight, "0.5"),
    (.surrogateLossClip, "0.2"), (.gradientMax, "np.inf"), (.gaeLambda, "1.0"), (.discount, "0.99"), (.normalizeAdvantage, "True"),
    (.replaySize, "500000"), (.replayDevice, "'cpu'"), (.replayBuffer, "None"), (.visualize, "False"), (.visualizeDir, "''")]
  uses := [.surrogateLossClip]
  supPos := [.param .actor, .param .critic, .param .optimizer, .param .criterion]
  supKw := [
    (.lrScheduler, .param .lrScheduler), (.lrSchedulerArgs, .param .lrSchedulerArgs), (.lrSchedulerKwargs, .param .lrSchedulerKwargs),
    (.batchSize, .param .batchSize), (.actorUpdateTimes, .param .actorUpdateTimes), (.criticUpdateTimes, .param .criticUpdateTimes),
    (.actorLearningRate, .param .actorLearningRate), (.criticLearningRate, .param .criticLearningRate), (.entropyWeight, .param .entropyWeight),
    (.valueWeight, .param .valueWeight), (.gradientMax, .param .gradientMax), (.gaeLambda, .param .gaeLambda), (.discount, .param .discount),
    (.normalizeAdvantage, .param .normalizeAdvantage), (.replaySize, .param .replaySize), (.replayDevice, .param .replayDevice),
    (.replayBuffer, .param .replayBuffer), (.visualize, .param .visualize), (.visualizeDir, .param .visualizeDir)]

/-- `TRPO.__init__` (trpo.py:15-182). -/
def trpoLevel : Level where
  pos := [.actor, .critic, .optimizer, .criterion]
  kw := [
    (.lrScheduler, "None"), (.lrSchedulerArgs, "()"), (.lrSchedulerKwargs, "()"), (.batchSize, "100"), (.criticUpdateTimes, "10"),
    (.actorLearningRate, "0.003"), (.criticLearningRate, "0.001"), (.entropyWeight, "None"), (.valueWeight, "0.5"), (.gradientMax, "np.inf"),
    (.gaeLambda, "1.0"), (.discount, "0.99"), (.normalizeAdvantage, "True"), (.klMaxDelta, "0.01"), (.damping, "0.1"), (.lineSearchBacktracks, "10"),
    (.conjugateEps, "1e-08"), (.conjugateIterations, "10"), (.conjugateResThreshold, "1e-10"), (.hvMode, "'fim'"), (.replaySize, "500000"),
    (.replayDevice, "'cpu'"), (.replayBuffer, "None"), (.visualize, "False"), (.visualizeDir, "''")]
  uses := [.klMaxDelta, .damping, .lineSearchBacktracks, .conjugateEps, .conjugateIterations, .conjugateResThreshold, .hvMode]
  supPos := [.param .actor, .param .critic, .param .optimizer, .param .criterion]
  supKw := [
    (.lrScheduler, .param .lrScheduler), (.lrSchedulerArgs, .param .lrSchedulerArgs), (.lrSchedulerKwargs, .param .lrSchedulerKwargs),
    (.batchSize, .param .batchSize), (.actorUpdateTimes, .text "1"), (.criticUpdateTimes, .param .criticUpdateTimes),
    (.actorLearningRate, .param .actorLearningRate), (.criticLearningRate, .param .criticLearningRate), (.entropyWeight, .param .entropyWeight),
    (.valueWeight, .param .valueWeight), (.gradientMax, .param .gradientMax), (.gaeLambda, .param .gaeLambda), (.discount, .param .discount),
    (.normalizeAdvantage, .param .normalizeAdvantage), (.replaySize, .param .replaySize), (.replayDevice, .param .replayDevice),
    (.replayBuffer, .param .replayBuffer), (.visualize, .param .visualize), (.visualizeDir, .param .visualizeDir)]

/-- `SAC.__init__` (sac.py:31-183). -/
def sacLevel : Level where
  pos := [.actor, .critic, .criticTarget, .critic2, .critic2Target, .optimizer, .criterion]
  kw := [
    (.lrScheduler, "None"), (.lrSchedulerArgs, "None"), (.lrSchedulerKwargs, "None"), (.targetEntropy, "None"), (.initialEntropyAlpha, "1.0"),
    (.batchSize, "100"), (.updateRate, "0.005"), (.updateSteps, "None"), (.actorLearningRate, "0.0005"), (.criticLearningRate, "0.001"),
    (.alphaLearningRate, "0.001"), (.discount, "0.99"), (.gradientMax, "np.inf"), (.replaySize, "500000"), (.replayDevice, "'cpu'"),
    (.replayBuffer, "None"), (.visualize, "False"), (.visualizeDir, "''")]
  uses := [
    .actor, .critic, .criticTarget, .critic2, .critic2Target, .optimizer, .criterion, .lrScheduler, .lrSchedulerArgs, .lrSchedulerKwargs,
    .targetEntropy, .initialEntropyAlpha, .batchSize, .updateRate, .updateSteps, .actorLearningRate, .criticLearningRate, .alphaLearningRate,
    .discount, .gradientMax, .replaySize, .replayDevice, .replayBuffer, .visualize, .visualizeDir]
  supPos := []
  supKw := []

/-- `DQNApex.__init__` (apex.py:24-110). -/
def dqnApexLevel : Level where
  pos := [.qnet, .qnetTarget, .optimizer, .criterion, .apexGroup, .modelServer]
  kw := [
    (.lrScheduler, "None"), (.lrSchedulerArgs, "()"), (.lrSchedulerKwargs, "()"), (.batchSize, "100"), (.epsilonDecay, "0.9999"),
    (.updateRate, "0.005"), (.updateSteps, "None"), (.learningRate, "0.001"), (.discount, "0.99"), (.gradientMax, "np.inf"), (.replaySize, "500000")]
  uses := [.apexGroup, .modelServer, .replaySize]
  supPos := [.param .qnet, .param .qnetTarget, .param .optimizer, .param .criterion]
  supKw := [
    (.lrScheduler, .param .lrScheduler), (.lrSchedulerArgs, .param .lrSchedulerArgs), (.lrSchedulerKwargs, .param .lrSchedulerKwargs),
    (.batchSize, .param .batchSize), (.epsilonDecay, .param .epsilonDecay), (.updateRate, .param .updateRate), (.updateSteps, .param .updateSteps),
    (.learningRate, .param .learningRate), (.discount, .param .discount), (.gradientMax, .param .gradientMax)]

/-- `DDPGApex.__init__` (apex.py:267-361). -/
def ddpgApexLevel : Level where
  pos := [.actor, .actorTarget, .critic, .criticTarget, .optimizer, .criterion, .apexGroup, .modelServer]
  kw := [
    (.lrScheduler, "None"), (.lrSchedulerArgs, "()"), (.lrSchedulerKwargs, "()"), (.batchSize, "100"), (.updateRate, "0.005"),
    (.updateSteps, "None"), (.actorLearningRate, "0.0005"), (.criticLearningRate, "0.001"), (.discount, "0.99"), (.gradientMax, "np.inf"),
    (.replaySize, "500000")]
  uses := [.apexGroup, .modelServer, .replaySize]
  supPos := [.param .actor, .param .actorTarget, .param .critic, .param .criticTarget, .param .optimizer, .param .criterion]
  supKw := [
    (.lrScheduler, .param .lrScheduler), (.lrSchedulerArgs, .param .lrSchedulerArgs), (.lrSchedulerKwargs, .param .lrSchedulerKwargs),
    (.batchSize, .param .batchSize), (.updateRate, .param .updateRate), (.updateSteps, .param .updateSteps),
    (.actorLearningRate, .param .actorLearningRate), (.criticLearningRate, .param .criticLearningRate), (.discount, .param .discount),
    (.gradientMax, .param .gradientMax)]

/-- `IMPALA.__init__` (impala.py:77-160). -/
def impalaLevel : Level where
  pos := [.actor, .critic, .optimizer, .criterion, .impalaGroup, .modelServer]
  kw := [
    (.lrScheduler, "None"), (.lrSchedulerArgs, "()"), (.lrSchedulerKwargs, "()"), (.batchSize, "5"), (.learningRate, "0.001"), (.iswClipC, "1.0"),
    (.iswClipRho, "1.0"), (.entropyWeight, "None"), (.valueWeight, "0.5"), (.gradientMax, "np.inf"), (.discount, "0.99"), (.replaySize, "500")]
  uses := [
    .actor, .critic, .optimizer, .criterion, .impalaGroup, .modelServer, .lrScheduler, .lrSchedulerArgs, .lrSchedulerKwargs, .batchSize,
    .learningRate, .iswClipC, .iswClipRho, .entropyWeight, .valueWeight, .gradientMax, .discount, .replaySize]
  supPos := []
  supKw := []

/-- `ARS.__init__` (ars.py:279-415). -/
def arsLevel : Level where
  pos := [.actor, .optimizer, .arsGroup, .modelServer]
  kw := [
    (.lrScheduler, "None"), (.lrSchedulerArgs, "None"), (.lrSchedulerKwargs, "None"), (.learningRate, "0.01"), (.gradientMax, "np.inf"),
    (.noiseStdDev, "0.02"), (.noiseSize, "250000000"), (.rolloutNum, "32"), (.usedRolloutNum, "32"), (.normalizeState, "True"),
    (.noiseSeed, "12345"), (.sampleSeed, "123")]
  uses := [
    .actor, .optimizer, .arsGroup, .modelServer, .lrScheduler, .lrSchedulerArgs, .lrSchedulerKwargs, .learningRate, .gradientMax, .noiseStdDev,
    .noiseSize, .rolloutNum, .usedRolloutNum, .normalizeState, .noiseSeed, .sampleSeed]
  supPos := []
  supKw := []

/-- `MADDPG.__init__` (maddpg.py:60-305). -/
def maddpgLevel : Level where
  pos := [.actors, .actorTargets, .critics, .criticTargets, .optimizer, .criterion]
  kw := [
    (.lrScheduler, "None"), (.lrSchedulerArgs, "None"), (.lrSchedulerKwargs, "None"), (.criticVisibleActors, "None"), (.subPolicyNum, "0"),
    (.batchSize, "100"), (.updateRate, "0.001"), (.updateSteps, "None"), (.actorLearningRate, "0.0005"), (.criticLearningRate, "0.001"),
    (.discount, "0.99"), (.gradientMax, "np.inf"), (.replaySize, "500000"), (.replayDevice, "'cpu'"), (.replayBuffer, "None"), (.visualize, "False"),
    (.visualizeDir, "''"), (.useJit, "True"), (.poolType, "'thread'"), (.poolSize, "None")]
  uses := [
    .actors, .actorTargets, .critics, .criticTargets, .optimizer, .criterion, .lrScheduler, .lrSchedulerArgs, .lrSchedulerKwargs,
    .criticVisibleActors, .subPolicyNum, .batchSize, .updateRate, .updateSteps, .actorLearningRate, .criticLearningRate, .discount, .gradientMax,
    .replaySize, .replayDevice, .replayBuffer, .visualize, .visualizeDir, .useJit, .poolType, .poolSize]
  supPos := []
  supKw := []

/-- `GAIL.__init__` (gail.py:68-181). -/
def gailLevel : Level where
  pos := [.discriminator, .constrainedPolicyOptimization, .optimizer]
  kw := [
    (.lrScheduler, "None"), (.lrSchedulerArgs, "None"), (.lrSchedulerKwargs, "None"), (.batchSize, "100"), (.discriminatorUpdateTimes, "1"),
    (.discriminatorLearningRate, "0.001"), (.gradientMax, "np.inf"), (.expertReplaySize, "500000"), (.expertReplayDevice, "'cpu'"),
    (.expertReplayBuffer, "None"), (.visualize, "False"), (.visualizeDir, "''")]
  uses := [
    .discriminator, .constrainedPolicyOptimization, .optimizer, .lrScheduler, .lrSchedulerArgs, .lrSchedulerKwargs, .batchSize,
    .discriminatorUpdateTimes, .discriminatorLearningRate, .gradientMax, .expertReplaySize, .expertReplayDevice, .expertReplayBuffer, .visualize,
    .visualizeDir]
  supPos := []
  supKw := []

/-- A constructor followed by those of its superclasses. -/
def Algo.chain : Algo → List Level
  | .dqn => [dqnLevel]
  | .dqnPer => [dqnPerLevel, dqnLevel]
  | .rainbow => [rainbowLevel, dqnLevel]
  | .ddpg => [ddpgLevel]
  | .hddpg => [hddpgLevel, ddpgLevel]
  | .td3 => [td3Level, ddpgLevel]
  | .ddpgPer => [ddpgPerLevel, ddpgLevel]
  | .a2c => [a2cLevel]
  | .a3c => [a3cLevel, a2cLevel]
  | .ppo => [ppoLevel, a2cLevel]
  | .trpo => [trpoLevel, a2cLevel]
  | .sac => [sacLevel]
  | .dqnApex => [dqnApexLevel, dqnPerLevel, dqnLevel]
  | .ddpgApex => [ddpgApexLevel, ddpgPerLevel, ddpgLevel]
  | .impala => [impalaLevel]
  | .ars => [arsLevel]
  | .maddpg => [maddpgLevel]
  | .gail => [gailLevel]

/-- The keys of the generated `frame_config`. -/
def Algo.keys : Algo → List Key
  -- dqn.py:503-536
  | .dqn => [
      .models, .modelArgs, .modelKwargs, .optimizer, .criterion, .criterionArgs, .criterionKwargs, .lrScheduler, .lrSchedulerArgs,
      .lrSchedulerKwargs, .batchSize, .epsilonDecay, .updateRate, .updateSteps, .learningRate, .discount, .gradientMax, .replaySize, .replayDevice,
      .replayBuffer, .mode, .visualize, .visualizeDir]
  -- dqn_per.py:163-167
  | .dqnPer => [
      .models, .modelArgs, .modelKwargs, .optimizer, .criterion, .criterionArgs, .criterionKwargs, .lrScheduler, .lrSchedulerArgs,
      .lrSchedulerKwargs, .batchSize, .epsilonDecay, .updateRate, .updateSteps, .learningRate, .discount, .gradientMax, .replaySize, .replayDevice,
      .replayBuffer, .mode, .visualize, .visualizeDir]
  -- rainbow.py:332-339
  | .rainbow => [
      .models, .modelArgs, .modelKwargs, .optimizer, .criterion, .criterionArgs, .criterionKwargs, .lrScheduler, .lrSchedulerArgs,
      .lrSchedulerKwargs, .batchSize, .epsilonDecay, .updateRate, .updateSteps, .learningRate, .discount, .gradientMax, .replaySize, .replayDevice,
      .replayBuffer, .mode, .visualize, .visualizeDir, .valueMin, .valueMax, .rewardFutureSteps]
  -- ddpg.py:512-544
  | .ddpg => [
      .models, .modelArgs, .modelKwargs, .optimizer, .criterion, .criterionArgs, .criterionKwargs, .lrScheduler, .lrSchedulerArgs,
      .lrSchedulerKwargs, .batchSize, .updateRate, .updateSteps, .actorLearningRate, .criticLearningRate, .gradientMax, .discount, .replaySize,
      .replayDevice, .replayBuffer, .visualize, .visualizeDir]
  -- hddpg.py:183-189
  | .hddpg => [
      .models, .modelArgs, .modelKwargs, .optimizer, .criterion, .criterionArgs, .criterionKwargs, .lrScheduler, .lrSchedulerArgs,
      .lrSchedulerKwargs, .batchSize, .updateRate, .updateSteps, .actorLearningRate, .criticLearningRate, .gradientMax, .discount, .replaySize,
      .replayDevice, .replayBuffer, .visualize, .visualizeDir, .qIncreaseRate, .qDecreaseRate]
  -- td3.py:286-300
  | .td3 => [
      .models, .modelArgs, .modelKwargs, .optimizer, .criterion, .criterionArgs, .criterionKwargs, .lrScheduler, .lrSchedulerArgs,
      .lrSchedulerKwargs, .batchSize, .updateRate, .updateSteps, .actorLearningRate, .criticLearningRate, .gradientMax, .discount, .replaySize,
      .replayDevice, .replayBuffer, .visualize, .visualizeDir]
  -- ddpg_per.py:187-191
  | .ddpgPer => [
      .models, .modelArgs, .modelKwargs, .optimizer, .criterion, .criterionArgs, .criterionKwargs, .lrScheduler, .lrSchedulerArgs,
      .lrSchedulerKwargs, .batchSize, .updateRate, .updateSteps, .actorLearningRate, .criticLearningRate, .gradientMax, .discount, .replaySize,
      .replayDevice, .replayBuffer, .visualize, .visualizeDir]
  -- a2c.py:433-469
  | .a2c => [
      .models, .modelArgs, .modelKwargs, .optimizer, .criterion, .criterionArgs, .criterionKwargs, .lrScheduler, .lrSchedulerArgs,
      .lrSchedulerKwargs, .batchSize, .actorUpdateTimes, .criticUpdateTimes, .actorLearningRate, .criticLearningRate, .entropyWeight, .valueWeight,
      .gradientMax, .gaeLambda, .discount, .normalizeAdvantage, .replaySize, .replayDevice, .replayBuffer, .visualize, .visualizeDir]
  -- a3c.py:167-205
  | .a3c => [
      .gradServerGroupName, .gradServerMembers, .models, .modelArgs, .modelKwargs, .optimizer, .criterion, .criterionArgs, .criterionKwargs,
      .lrScheduler, .lrSchedulerArgs, .lrSchedulerKwargs, .batchSize, .actorUpdateTimes, .criticUpdateTimes, .actorLearningRate, .criticLearningRate,
      .entropyWeight, .valueWeight, .gradientMax, .gaeLambda, .discount, .normalizeAdvantage, .replaySize, .replayDevice, .replayBuffer, .visualize,
      .visualizeDir]
  -- ppo.py:216-221
  | .ppo => [
      .models, .modelArgs, .modelKwargs, .optimizer, .criterion, .criterionArgs, .criterionKwargs, .lrScheduler, .lrSchedulerArgs,
      .lrSchedulerKwargs, .batchSize, .actorUpdateTimes, .criticUpdateTimes, .actorLearningRate, .criticLearningRate, .entropyWeight, .valueWeight,
      .gradientMax, .gaeLambda, .discount, .normalizeAdvantage, .replaySize, .replayDevice, .replayBuffer, .visualize, .visualizeDir,
      .surrogateLossClip]
  -- trpo.py:500-511
  | .trpo => [
      .models, .modelArgs, .modelKwargs, .optimizer, .criterion, .criterionArgs, .criterionKwargs, .lrScheduler, .lrSchedulerArgs,
      .lrSchedulerKwargs, .batchSize, .actorUpdateTimes, .criticUpdateTimes, .actorLearningRate, .criticLearningRate, .entropyWeight, .valueWeight,
      .gradientMax, .gaeLambda, .discount, .normalizeAdvantage, .replaySize, .replayDevice, .replayBuffer, .visualize, .visualizeDir, .klMaxDelta,
      .damping, .lineSearchBacktracks, .conjugateEps, .conjugateIterations, .conjugateResThreshold, .hvMode]
  -- sac.py:425-460
  | .sac => [
      .models, .modelArgs, .modelKwargs, .optimizer, .criterion, .criterionArgs, .criterionKwargs, .lrScheduler, .lrSchedulerArgs,
      .lrSchedulerKwargs, .targetEntropy, .initialEntropyAlpha, .batchSize, .updateRate, .updateSteps, .actorLearningRate, .criticLearningRate,
      .alphaLearningRate, .discount, .gradientMax, .replaySize, .replayDevice, .replayBuffer, .visualize, .visualizeDir]
  -- apex.py:152-186
  | .dqnApex => [
      .learnerProcessNumber, .modelServerGroupName, .modelServerMembers, .apexGroupName, .apexMembers, .models, .modelArgs, .modelKwargs, .optimizer,
      .criterion, .criterionArgs, .criterionKwargs, .lrScheduler, .lrSchedulerArgs, .lrSchedulerKwargs, .batchSize, .epsilonDecay, .updateRate,
      .updateSteps, .learningRate, .discount, .gradientMax, .replaySize]
  -- apex.py:432-465
  | .ddpgApex => [
      .learnerProcessNumber, .modelServerGroupName, .modelServerMembers, .apexGroupName, .apexMembers, .models, .modelArgs, .modelKwargs, .optimizer,
      .criterion, .criterionArgs, .criterionKwargs, .lrScheduler, .lrSchedulerArgs, .lrSchedulerKwargs, .batchSize, .updateRate, .updateSteps,
      .learningRate, .discount, .gradientMax, .replaySize]
  -- impala.py:408-443
  | .impala => [
      .learnerProcessNumber, .modelServerGroupName, .modelServerMembers, .impalaGroupName, .impalaMembers, .models, .modelArgs, .modelKwargs,
      .optimizer, .criterion, .criterionArgs, .criterionKwargs, .lrScheduler, .lrSchedulerArgs, .lrSchedulerKwargs, .batchSize, .learningRate,
      .iswClipC, .iswClipRho, .entropyWeight, .valueWeight, .gradientMax, .discount, .replaySize]
  -- ars.py:702-732
  | .ars => [
      .modelServerGroupName, .modelServerMembers, .arsGroupName, .arsMembers, .models, .modelArgs, .modelKwargs, .optimizer, .lrScheduler,
      .lrSchedulerArgs, .lrSchedulerKwargs, .learningRate, .gradientMax, .noiseStdDev, .noiseSize, .rolloutNum, .usedRolloutNum, .normalizeState,
      .noiseSeed, .sampleSeed]
  -- maddpg.py:999-1036
  | .maddpg => [
      .models, .modelArgs, .modelKwargs, .optimizer, .criterion, .criterionArgs, .criterionKwargs, .criticVisibleActors, .subPolicyNum, .lrScheduler,
      .lrSchedulerArgs, .lrSchedulerKwargs, .batchSize, .updateRate, .updateSteps, .actorLearningRate, .criticLearningRate, .discount, .gradientMax,
      .replaySize, .replayDevice, .replayBuffer, .visualize, .visualizeDir, .useJit, .poolType, .poolSize]
  -- gail.py:331-361
  | .gail => [
      .models, .modelArgs, .modelKwargs, .constrainedPolicyOptimization, .optimizer, .ppoConfig, .trpoConfig, .lrScheduler, .lrSchedulerArgs,
      .lrSchedulerKwargs, .batchSize, .discriminatorUpdateTimes, .discriminatorLearningRate, .gradientMax, .expertTrajectoryPath, .expertReplaySize,
      .expertReplayDevice, .expertReplayBuffer, .visualize, .visualizeDir]

end Machin.Frames
