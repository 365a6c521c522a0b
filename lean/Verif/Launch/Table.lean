import Verif.Frames.Table

/-! # The default values of generated configurations (`generate_config` of `machin/frame/algorithms/*.py`)

Values are the texts of the expressions in the code. -/

namespace Machin.Launch

open Frames

/-- The names of the frameworks (algorithms/__init__.py). -/
def name : Algo → String
  | .dqn => "DQN"
  | .dqnPer => "DQNPer"
  | .rainbow => "RAINBOW"
  | .ddpg => "DDPG"
  | .hddpg => "HDDPG"
  | .td3 => "TD3"
  | .ddpgPer => "DDPGPer"
  | .a2c => "A2C"
  | .a3c => "A3C"
  | .ppo => "PPO"
  | .trpo => "TRPO"
  | .sac => "SAC"
  | .dqnApex => "DQNApex"
  | .ddpgApex => "DDPGApex"
  | .impala => "IMPALA"
  | .ars => "ARS"
  | .maddpg => "MADDPG"
  | .gail => "GAIL"

/-- The framework whose `generate_config` is called first. -/
def parent : Algo → Option Algo
  | .dqnPer => some .dqn
  | .rainbow => some .dqn
  | .hddpg => some .ddpg
  | .td3 => some .ddpg
  | .ddpgPer => some .ddpg
  | .ppo => some .a2c
  | .trpo => some .a2c
  | _ => none

/-- The `default_values` of a framework without such a call. -/
def defaults : Algo → List (Key × String)
  -- dqn.py:503-536
  | .dqn => [
      (.models, "['QNet', 'QNet']"), (.modelArgs, "((), ())"), (.modelKwargs, "({}, {})"), (.optimizer, "'Adam'"), (.criterion, "'MSELoss'"),
      (.criterionArgs, "()"), (.criterionKwargs, "{}"), (.lrScheduler, "None"), (.lrSchedulerArgs, "None"), (.lrSchedulerKwargs, "None"),
      (.batchSize, "100"), (.epsilonDecay, "0.9999"), (.updateRate, "0.005"), (.updateSteps, "None"), (.learningRate, "0.001"),
      (.discount, "0.99"), (.gradientMax, "np.inf"), (.replaySize, "500000"), (.replayDevice, "'cpu'"), (.replayBuffer, "None"),
      (.mode, "'double'"), (.visualize, "False"), (.visualizeDir, "''")]
  -- ddpg.py:512-544
  | .ddpg => [
      (.models, "['Actor', 'Actor', 'Critic', 'Critic']"), (.modelArgs, "((), (), (), ())"), (.modelKwargs, "({}, {}, {}, {})"),
      (.optimizer, "'Adam'"), (.criterion, "'MSELoss'"), (.criterionArgs, "()"), (.criterionKwargs, "{}"), (.lrScheduler, "None"),
      (.lrSchedulerArgs, "None"), (.lrSchedulerKwargs, "None"), (.batchSize, "100"), (.updateRate, "0.001"), (.updateSteps, "None"),
      (.actorLearningRate, "0.0005"), (.criticLearningRate, "0.001"), (.gradientMax, "np.inf"), (.discount, "0.99"), (.replaySize, "500000"),
      (.replayDevice, "'cpu'"), (.replayBuffer, "None"), (.visualize, "False"), (.visualizeDir, "''")]
  -- a2c.py:433-469
  | .a2c => [
      (.models, "['Actor', 'Critic']"), (.modelArgs, "((), ())"), (.modelKwargs, "({}, {})"), (.optimizer, "'Adam'"), (.criterion, "'MSELoss'"),
      (.criterionArgs, "()"), (.criterionKwargs, "{}"), (.lrScheduler, "None"), (.lrSchedulerArgs, "None"), (.lrSchedulerKwargs, "None"),
      (.batchSize, "100"), (.actorUpdateTimes, "5"), (.criticUpdateTimes, "10"), (.actorLearningRate, "0.001"), (.criticLearningRate, "0.001"),
      (.entropyWeight, "None"), (.valueWeight, "0.5"), (.gradientMax, "np.inf"), (.gaeLambda, "1.0"), (.discount, "0.99"),
      (.normalizeAdvantage, "True"), (.replaySize, "500000"), (.replayDevice, "'cpu'"), (.replayBuffer, "None"), (.visualize, "False"),
      (.visualizeDir, "''")]
  -- a3c.py:167-205
  | .a3c => [
      (.gradServerGroupName, "'a3c_grad_server'"), (.gradServerMembers, "'all'"), (.models, "['Actor', 'Critic']"), (.modelArgs, "((), ())"),
      (.modelKwargs, "({}, {})"), (.optimizer, "'Adam'"), (.criterion, "'MSELoss'"), (.criterionArgs, "()"), (.criterionKwargs, "{}"),
      (.lrScheduler, "None"), (.lrSchedulerArgs, "None"), (.lrSchedulerKwargs, "None"), (.batchSize, "100"), (.actorUpdateTimes, "5"),
      (.criticUpdateTimes, "10"), (.actorLearningRate, "0.001"), (.criticLearningRate, "0.001"), (.entropyWeight, "None"), (.valueWeight, "0.5"),
      (.gradientMax, "np.inf"), (.gaeLambda, "1.0"), (.discount, "0.99"), (.normalizeAdvantage, "True"), (.replaySize, "500000"),
      (.replayDevice, "'cpu'"), (.replayBuffer, "None"), (.visualize, "False"), (.visualizeDir, "''")]
  -- sac.py:425-460
  | .sac => [
      (.models, "['Actor', 'Critic', 'Critic', 'Critic', 'Critic']"), (.modelArgs, "((), (), (), (), ())"),
      (.modelKwargs, "({}, {}, {}, {}, {})"), (.optimizer, "'Adam'"), (.criterion, "'MSELoss'"), (.criterionArgs, "()"),
      (.criterionKwargs, "{}"), (.lrScheduler, "None"), (.lrSchedulerArgs, "None"), (.lrSchedulerKwargs, "None"), (.targetEntropy, "None"),
      (.initialEntropyAlpha, "1.0"), (.batchSize, "100"), (.updateRate, "0.001"), (.updateSteps, "None"), (.actorLearningRate, "0.0005"),
      (.criticLearningRate, "0.001"), (.alphaLearningRate, "0.001"), (.discount, "0.99"), (.gradientMax, "np.inf"), (.replaySize, "500000"),
      (.replayDevice, "'cpu'"), (.replayBuffer, "None"), (.visualize, "False"), (.visualizeDir, "''")]
  -- apex.py:152-186
  | .dqnApex => [
      (.learnerProcessNumber, "1"), (.modelServerGroupName, "'dqn_apex_model_server'"), (.modelServerMembers, "'all'"),
      (.apexGroupName, "'dqn_apex'"), (.apexMembers, "'all'"), (.models, "['QNet', 'QNet']"), (.modelArgs, "((), ())"),
      (.modelKwargs, "({}, {})"), (.optimizer, "'Adam'"), (.criterion, "'MSELoss'"), (.criterionArgs, "()"), (.criterionKwargs, "{}"),
      (.lrScheduler, "None"), (.lrSchedulerArgs, "None"), (.lrSchedulerKwargs, "None"), (.batchSize, "100"), (.epsilonDecay, "0.9999"),
      (.updateRate, "0.005"), (.updateSteps, "None"), (.learningRate, "0.001"), (.discount, "0.99"), (.gradientMax, "np.inf"),
      (.replaySize, "500000")]
  -- apex.py:432-465
  | .ddpgApex => [
      (.learnerProcessNumber, "1"), (.modelServerGroupName, "'ddpg_apex_model_server'"), (.modelServerMembers, "'all'"),
      (.apexGroupName, "'ddpg_apex'"), (.apexMembers, "'all'"), (.models, "['Actor', 'Actor', 'Critic', 'Critic']"),
      (.modelArgs, "((), (), (), ())"), (.modelKwargs, "({}, {}, {}, {})"), (.optimizer, "'Adam'"), (.criterion, "'MSELoss'"),
      (.criterionArgs, "()"), (.criterionKwargs, "{}"), (.lrScheduler, "None"), (.lrSchedulerArgs, "None"), (.lrSchedulerKwargs, "None"),
      (.batchSize, "100"), (.updateRate, "0.005"), (.updateSteps, "None"), (.learningRate, "0.001"), (.discount, "0.99"),
      (.gradientMax, "np.inf"), (.replaySize, "500000")]
  -- impala.py:408-443
  | .impala => [
      (.learnerProcessNumber, "1"), (.modelServerGroupName, "'impala_model_server'"), (.modelServerMembers, "'all'"),
      (.impalaGroupName, "'impala'"), (.impalaMembers, "'all'"), (.models, "['Actor', 'Critic']"), (.modelArgs, "((), ())"),
      (.modelKwargs, "({}, {})"), (.optimizer, "'Adam'"), (.criterion, "'MSELoss'"), (.criterionArgs, "()"), (.criterionKwargs, "{}"),
      (.lrScheduler, "None"), (.lrSchedulerArgs, "None"), (.lrSchedulerKwargs, "None"), (.batchSize, "5"), (.learningRate, "0.001"),
      (.iswClipC, "1.0"), (.iswClipRho, "1.0"), (.entropyWeight, "None"), (.valueWeight, "0.5"), (.gradientMax, "np.inf"), (.discount, "0.99"),
      (.replaySize, "500")]
  -- ars.py:702-732
  | .ars => [
      (.modelServerGroupName, "'ars_model_server'"), (.modelServerMembers, "'all'"), (.arsGroupName, "'ars'"), (.arsMembers, "'all'"),
      (.models, "['Actor']"), (.modelArgs, "((),)"), (.modelKwargs, "({},)"), (.optimizer, "'Adam'"), (.lrScheduler, "None"),
      (.lrSchedulerArgs, "None"), (.lrSchedulerKwargs, "None"), (.learningRate, "0.001"), (.gradientMax, "np.inf"), (.noiseStdDev, "0.02"),
      (.noiseSize, "250000000"), (.rolloutNum, "32"), (.usedRolloutNum, "32"), (.normalizeState, "True"), (.noiseSeed, "12345"),
      (.sampleSeed, "123")]
  -- maddpg.py:999-1036
  | .maddpg => [
      (.models, "[['Actor'], ['Actor'], ['Critic'], ['Critic']]"), (.modelArgs, "([()], [()], [()], [()])"),
      (.modelKwargs, "([{}], [{}], [{}], [{}])"), (.optimizer, "'Adam'"), (.criterion, "'MSELoss'"), (.criterionArgs, "()"),
      (.criterionKwargs, "{}"), (.criticVisibleActors, "None"), (.subPolicyNum, "0"), (.lrScheduler, "None"), (.lrSchedulerArgs, "None"),
      (.lrSchedulerKwargs, "None"), (.batchSize, "100"), (.updateRate, "0.001"), (.updateSteps, "None"), (.actorLearningRate, "0.0005"),
      (.criticLearningRate, "0.001"), (.discount, "0.99"), (.gradientMax, "np.inf"), (.replaySize, "500000"), (.replayDevice, "'cpu'"),
      (.replayBuffer, "None"), (.visualize, "False"), (.visualizeDir, "''"), (.useJit, "True"), (.poolType, "'thread'"), (.poolSize, "None")]
  -- gail.py:331-361
  | .gail => [
      (.models, "['Discriminator']"), (.modelArgs, "((),)"), (.modelKwargs, "({},)"), (.constrainedPolicyOptimization, "'PPO'"),
      (.optimizer, "'Adam'"), (.ppoConfig, "PPO.generate_config({})"), (.trpoConfig, "TRPO.generate_config({})"), (.lrScheduler, "None"),
      (.lrSchedulerArgs, "None"), (.lrSchedulerKwargs, "None"), (.batchSize, "100"), (.discriminatorUpdateTimes, "1"),
      (.discriminatorLearningRate, "0.001"), (.gradientMax, "np.inf"), (.expertTrajectoryPath, "'trajectory.data'"),
      (.expertReplaySize, "500000"), (.expertReplayDevice, "'cpu'"), (.expertReplayBuffer, "None"), (.visualize, "False"), (.visualizeDir, "''")]
  | _ => []

/-- The settings that a framework with such a call writes afterwards. -/
def extras : Algo → List (Key × String)
  -- rainbow.py:332-339
  | .rainbow => [
      (.valueMin, "-1.0"), (.valueMax, "1.0"), (.rewardFutureSteps, "3")]
  -- hddpg.py:183-189
  | .hddpg => [
      (.qIncreaseRate, "1.0"), (.qDecreaseRate, "1.0")]
  -- td3.py:286-300
  | .td3 => [
      (.models, "['Actor', 'Actor', 'Critic', 'Critic', 'Critic', 'Critic']"), (.modelArgs, "((), (), (), (), (), ())"),
      (.modelKwargs, "({}, {}, {}, {}, {}, {})")]
  -- ppo.py:216-221
  | .ppo => [
      (.surrogateLossClip, "0.2")]
  -- trpo.py:500-511
  | .trpo => [
      (.klMaxDelta, "0.01"), (.damping, "0.1"), (.lineSearchBacktracks, "10"), (.conjugateEps, "1e-08"), (.conjugateIterations, "10"),
      (.conjugateResThreshold, "1e-10"), (.hvMode, "'fim'")]
  | _ => []

end Machin.Launch
