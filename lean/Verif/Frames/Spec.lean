import Verif.Frames.Model

/-!
# Specifications for frameworks from configurations
-/

namespace Machin.Frames

open Machin

variable {V : Type}

/-- The number of models of a framework. -/
def arity : Algo → Nat
  | .dqn | .dqnPer | .rainbow | .dqnApex => 2
  | .ddpg | .hddpg | .ddpgPer | .ddpgApex | .maddpg => 4
  | .td3 => 6
  | .sac => 5
  | .a2c | .a3c | .ppo | .trpo | .impala => 2
  | .ars | .gail => 1

/-- The positional parameters of the constructor that are no keys of the configuration: the models, groups and servers. -/
def slots (al : Algo) : List Key := ((al.chain.head?.map Level.pos).getD []).filter (· ∉ al.keys)

/-- The configuration has all generated keys, and no key with the name of a parameter that is filled from elsewhere; it may have any other keys. -/
def Complete (al : Algo) (c : Key → Option V) : Prop :=
  (∀ k ∈ al.keys, (c k).isSome) ∧ ∀ k ∈ slots al, c k = none

/-- If the framework is GAIL, its configuration names PPO or TRPO. -/
def NamesPolicy (al : Algo) (env : Env V) (c : Key → Option V) : Prop :=
  al = .gail → ∃ v ppo, c .constrainedPolicyOptimization = some v ∧ env.policyKind v = some ppo

/-- Keys whose effect is not that of a value handed on: the number of learners decides on the role, the kind of the policy of GAIL decides
between the two configurations of policies, of which the other has no effect. -/
def structural : List Key := [.learnerProcessNumber, .constrainedPolicyOptimization, .ppoConfig, .trpoConfig]

/-- The generated settings of a framework, apart from the structural ones. -/
def settings (al : Algo) : List Key := al.keys.filter (· ∉ structural)

/-- Two configurations that differ in one key only. -/
def DifferIn (k : Key) (c c' : Key → Option V) : Prop :=
  c k ≠ c' k ∧ ∀ k', k' ≠ k → c k' = c' k'

/-- The settings that the code of the framework drops (found by looking at the code, the theorems show that these are all). -/
def ignored : Algo → List Key
  | .dqnPer => [.mode]
  | .rainbow => [.criterion, .criterionArgs, .criterionKwargs, .mode]
  | .trpo => [.actorUpdateTimes]
  | .ddpgApex => [.learningRate]
  | _ => []

/-- Settings that are not handed to the constructor as they are, but used to build one of its arguments. -/
def building : List Key :=
  [.models, .modelArgs, .modelKwargs, .optimizer, .criterion, .criterionArgs, .criterionKwargs, .lrScheduler, .apexGroupName, .apexMembers,
   .impalaGroupName, .impalaMembers, .arsGroupName, .arsMembers, .modelServerGroupName, .modelServerMembers, .gradServerGroupName,
   .gradServerMembers, .expertTrajectoryPath]

/-- Settings of a framework that are handed to an object which is built before the constructor runs: A3C leaves optimizers to the gradient
servers; `replay_buffer` is replaced by a prioritized buffer if it is None. -/
def indirect : Algo → List Key
  | .a3c => [.actorLearningRate, .criticLearningRate, .lrSchedulerArgs, .lrSchedulerKwargs]
  | .dqnPer | .ddpgPer | .rainbow => [.replayBuffer]
  | _ => []

/-- The settings that the code of the framework must get under their own name. -/
def handed (al : Algo) : List Key := (settings al).filter fun k => k ∉ ignored al ∧ k ∉ building ∧ k ∉ indirect al

/-- The arguments that must be built from the settings `g`: the models in order, on the device, and the optimizer, criterion, scheduler, groups
and servers; `ddp` if the models are to be wrapped, `ppo` if GAIL is to use PPO. -/
def built (al : Algo) (g : Key → V) (ddp ppo : Bool) : List (Key × Val V) :=
  (((slots al).take (arity al)).zipIdx.map fun x =>
    (x.1, .model x.2 (g .models) (g .modelArgs) (g .modelKwargs) (decide (al ≠ .gail)) ddp)) ++
  (if al = .a3c then
    [(.gradServer, .gradServers (g .gradServerGroupName) (g .gradServerMembers) (g .optimizer) (g .actorLearningRate) (g .criticLearningRate)
      (g .lrScheduler) (g .lrSchedulerArgs) (g .lrSchedulerKwargs))]
   else [(.optimizer, .optimizer (g .optimizer)), (.lrScheduler, .scheduler (g .lrScheduler))]) ++
  (if al ∈ [Algo.rainbow, .ars, .gail] then []
   else [(.criterion, .criterion (g .criterion) (g .criterionArgs) (g .criterionKwargs)
          (decide (al ∈ [Algo.dqnPer, .ddpgPer, .dqnApex, .ddpgApex])))]) ++
  (match al with
   | .dqnApex | .ddpgApex =>
      [(.apexGroup, .group (g .apexGroupName) (g .apexMembers)), (.modelServer, .modelServers (g .modelServerGroupName) (g .modelServerMembers))]
   | .impala =>
      [(.impalaGroup, .group (g .impalaGroupName) (g .impalaMembers)),
       (.modelServer, .modelServers (g .modelServerGroupName) (g .modelServerMembers))]
   | .ars =>
      [(.arsGroup, .group (g .arsGroupName) (g .arsMembers)), (.modelServer, .modelServers (g .modelServerGroupName) (g .modelServerMembers))]
   | .gail => [(.constrainedPolicyOptimization, .policy ppo (g (if ppo then .ppoConfig else .trpoConfig)))]
   | .dqnPer | .rainbow | .ddpgPer => [(.replayBuffer, .prioritized (.conf (g .replayBuffer)) (.conf (g .replaySize)) (.conf (g .replayDevice)))]
   | _ => [])

/-- The frameworks whose models are followed by keyword arguments only. -/
def keywordStyle : List Algo := [.dqn, .dqnPer, .rainbow, .ddpg, .hddpg, .td3, .ddpgPer, .a2c, .ppo, .trpo, .sac, .maddpg]

/-- The frameworks that run in several processes (`is_distributed`: ars.py:432, a3c.py:128, impala.py:177, apex.py:113, 364). -/
def distributed : List Algo := [.a3c, .dqnApex, .ddpgApex, .impala, .ars]

/-- The frameworks with learners and samplers. -/
def withRoles : List Algo := [.dqnApex, .ddpgApex, .impala]

/-- All models of a framework are on the device `model_device`. -/
def AllMoved (fr : Frame V) : Prop :=
  ∀ x ∈ fr.attrs, ∀ i m a k moved ddp, x.2 = .model i m a k moved ddp → moved = true

end Machin.Frames
