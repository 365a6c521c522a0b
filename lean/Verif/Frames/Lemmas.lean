import Verif.Frames.Spec

/-!
# Lemmas for frameworks from configurations
-/

namespace Machin.Frames

open Machin

variable {V : Type}

/-- A complete configuration in a form that can be evaluated. -/
def conf (al : Algo) (g : Key → V) (extra : Key → Option V) : Key → Option V := fun k =>
  if k ∈ al.keys then some (g k) else if k ∈ slots al then none else extra k

theorem keys_models (al : Algo) : Key.models ∈ al.keys := by cases al <;> decide

theorem conf_of_complete (al : Algo) (c : Key → Option V) (h : Complete al c) : ∃ g, c = conf al g c := by
  obtain ⟨d, _⟩ := Option.isSome_iff_exists.mp (h.1 _ (keys_models al))
  refine ⟨fun k => (c k).getD d, ?_⟩
  funext k
  unfold conf
  by_cases h1 : k ∈ al.keys
  · rw [if_pos h1]
    obtain ⟨v, hv⟩ := Option.isSome_iff_exists.mp (h.1 k h1)
    simp only [hv, Option.getD_some]
  · rw [if_neg h1]
    by_cases h2 : k ∈ slots al
    · rw [if_pos h2]; exact h.2 k h2
    · rw [if_neg h2]

theorem conf_key (al : Algo) (g : Key → V) (extra : Key → Option V) (k : Key) (h : k ∈ al.keys) : conf al g extra k = some (g k) :=
  if_pos h

/-- What an argument shows of a setting. -/
def pickVal (k : Key) : Key × Val V → Option V
  | (k', .conf v) => if k = k' then some v else none
  | (_, .model _ m a kw _ _) => if k = .models then some m else if k = .modelArgs then some a else if k = .modelKwargs then some kw else none
  | (_, .optimizer v) => if k = .optimizer then some v else none
  | (_, .criterion c a kw _) =>
      if k = .criterion then some c else if k = .criterionArgs then some a else if k = .criterionKwargs then some kw else none
  | (_, .scheduler v) => if k = .lrScheduler then some v else none
  | (k', .group n m) =>
      if k' = .apexGroup then (if k = .apexGroupName then some n else if k = .apexMembers then some m else none)
      else if k' = .impalaGroup then (if k = .impalaGroupName then some n else if k = .impalaMembers then some m else none)
      else if k' = .arsGroup then (if k = .arsGroupName then some n else if k = .arsMembers then some m else none)
      else none
  | (_, .modelServers n m) => if k = .modelServerGroupName then some n else if k = .modelServerMembers then some m else none
  | (_, .gradServers n m o al cl s sa sk) =>
      if k = .gradServerGroupName then some n else if k = .gradServerMembers then some m else if k = .optimizer then some o
      else if k = .actorLearningRate then some al else if k = .criticLearningRate then some cl else if k = .lrScheduler then some s
      else if k = .lrSchedulerArgs then some sa else if k = .lrSchedulerKwargs then some sk else none
  | (_, .prioritized (.conf v) _ _) => if k = .replayBuffer then some v else none
  | _ => none

/-- What an argument shows of a setting, without looking at arguments that other settings determine. -/
def pick (k : Key) (x : Key × Val V) : Option V :=
  if k ∈ building ∨ x.1 = k ∨ x.1 = .gradServer then pickVal k x else none

/-- What a framework shows of a setting. -/
def observe (k : Key) (fr : Frame V) : Option V :=
  if k = .expertTrajectoryPath then fr.expert else fr.attrs.findSome? (pick k)

def obsAll (al : Algo) (fr : Frame V) : List (Key × Option V) :=
  ((settings al).filter (· ∉ ignored al)).map fun k => (k, observe k fr)

def expected (al : Algo) (g : Key → V) : List (Key × Option V) :=
  ((settings al).filter (· ∉ ignored al)).map fun k => (k, some (g k))

set_option maxRecDepth 100000 in
theorem obs_dqn (env : Env V) (g : Key → V) (extra : Key → Option V) :
    (init .dqn env (arity .dqn) (conf .dqn g extra)).map (obsAll .dqn) = .ok (expected .dqn g) := by cbv

set_option maxRecDepth 100000 in
theorem obs_dqnPer (env : Env V) (g : Key → V) (extra : Key → Option V) :
    (init .dqnPer env (arity .dqnPer) (conf .dqnPer g extra)).map (obsAll .dqnPer) = .ok (expected .dqnPer g) := by cbv

set_option maxRecDepth 100000 in
theorem obs_rainbow (env : Env V) (g : Key → V) (extra : Key → Option V) :
    (init .rainbow env (arity .rainbow) (conf .rainbow g extra)).map (obsAll .rainbow) = .ok (expected .rainbow g) := by cbv

set_option maxRecDepth 100000 in
theorem obs_ddpg (env : Env V) (g : Key → V) (extra : Key → Option V) :
    (init .ddpg env (arity .ddpg) (conf .ddpg g extra)).map (obsAll .ddpg) = .ok (expected .ddpg g) := by cbv

set_option maxRecDepth 100000 in
theorem obs_hddpg (env : Env V) (g : Key → V) (extra : Key → Option V) :
    (init .hddpg env (arity .hddpg) (conf .hddpg g extra)).map (obsAll .hddpg) = .ok (expected .hddpg g) := by cbv

set_option maxRecDepth 100000 in
theorem obs_td3 (env : Env V) (g : Key → V) (extra : Key → Option V) :
    (init .td3 env (arity .td3) (conf .td3 g extra)).map (obsAll .td3) = .ok (expected .td3 g) := by cbv

set_option maxRecDepth 100000 in
theorem obs_ddpgPer (env : Env V) (g : Key → V) (extra : Key → Option V) :
    (init .ddpgPer env (arity .ddpgPer) (conf .ddpgPer g extra)).map (obsAll .ddpgPer) = .ok (expected .ddpgPer g) := by cbv

set_option maxRecDepth 100000 in
theorem obs_a2c (env : Env V) (g : Key → V) (extra : Key → Option V) :
    (init .a2c env (arity .a2c) (conf .a2c g extra)).map (obsAll .a2c) = .ok (expected .a2c g) := by cbv

set_option maxRecDepth 100000 in
theorem obs_a3c (env : Env V) (g : Key → V) (extra : Key → Option V) :
    (init .a3c env (arity .a3c) (conf .a3c g extra)).map (obsAll .a3c) = .ok (expected .a3c g) := by cbv

set_option maxRecDepth 100000 in
theorem obs_ppo (env : Env V) (g : Key → V) (extra : Key → Option V) :
    (init .ppo env (arity .ppo) (conf .ppo g extra)).map (obsAll .ppo) = .ok (expected .ppo g) := by cbv

set_option maxRecDepth 100000 in
theorem obs_trpo (env : Env V) (g : Key → V) (extra : Key → Option V) :
    (init .trpo env (arity .trpo) (conf .trpo g extra)).map (obsAll .trpo) = .ok (expected .trpo g) := by cbv

set_option maxRecDepth 100000 in
theorem obs_sac (env : Env V) (g : Key → V) (extra : Key → Option V) :
    (init .sac env (arity .sac) (conf .sac g extra)).map (obsAll .sac) = .ok (expected .sac g) := by cbv

/-- A framework with roles in a form that can be evaluated. -/
def initLearnersWith (learner : Bool) (ls : List Level) (gName gMembers : Key) (unreduced : Bool) (n : Nat) (c : Key → Option V) :
    Except Err (Frame V) := do
  let g ← need c gName
  let gm ← need c gMembers
  let m ← need c .models
  let a ← need c .modelArgs
  let k ← need c .modelKwargs
  let _ ← need c .learnerProcessNumber
  let o ← need c .optimizer
  let cr ← need c .criterion
  let ca ← need c .criterionArgs
  let ck ← need c .criterionKwargs
  let s ← need c .lrScheduler
  let sn ← need c .modelServerGroupName
  let sm ← need c .modelServerMembers
  let kw := without c [.optimizer, .criterion, .lrScheduler]
  let attrs ← construct ls
    (models n m a k learner ++ [.optimizer o, .criterion cr ca ck unreduced, .group g gm, .modelServers sn sm])
    (fun x => if x = .lrScheduler then some (.scheduler s) else kw x)
  return { attrs := attrs, role := some (if learner then .learner else .sampler), updates := learner, expert := none }

theorem initLearners_with (env : Env V) (ls : List Level) (gName gMembers : Key) (u : Bool) (n : Nat) (c : Key → Option V) (v : V)
    (h : c .learnerProcessNumber = some v) :
    initLearners ls gName gMembers u env n c = initLearnersWith (decide (env.rank < env.number v)) ls gName gMembers u n c := by
  have e1 : need c .learnerProcessNumber = .ok v := by unfold need; rw [h]
  unfold initLearners initLearnersWith
  simp only [e1, Bind.bind, Except.bind]
  by_cases hr : env.rank < env.number v
  · have h2 : ¬ env.rank ≥ env.number v := by omega
    simp only [hr, h2, decide_true, decide_false, if_true, if_false]
    rfl
  · have h2 : env.rank ≥ env.number v := by omega
    simp only [hr, h2, decide_true, decide_false, if_true]
    rfl

set_option maxRecDepth 100000 in
theorem obs_dqnApex (l : Bool) (g : Key → V) (extra : Key → Option V) :
    (initLearnersWith l Algo.dqnApex.chain .apexGroupName .apexMembers true (arity .dqnApex) (conf .dqnApex g extra)).map (obsAll .dqnApex) = .ok (expected .dqnApex g) := by
  cases l <;> cbv

set_option maxRecDepth 100000 in
theorem obs_ddpgApex (l : Bool) (g : Key → V) (extra : Key → Option V) :
    (initLearnersWith l Algo.ddpgApex.chain .apexGroupName .apexMembers true (arity .ddpgApex) (conf .ddpgApex g extra)).map (obsAll .ddpgApex) = .ok (expected .ddpgApex g) := by
  cases l <;> cbv

set_option maxRecDepth 100000 in
theorem obs_impala (l : Bool) (g : Key → V) (extra : Key → Option V) :
    (initLearnersWith l Algo.impala.chain .impalaGroupName .impalaMembers false (arity .impala) (conf .impala g extra)).map (obsAll .impala) = .ok (expected .impala g) := by
  cases l <;> cbv

set_option maxRecDepth 100000 in
theorem obs_ars (env : Env V) (g : Key → V) (extra : Key → Option V) :
    (init .ars env (arity .ars) (conf .ars g extra)).map (obsAll .ars) = .ok (expected .ars g) := by cbv

set_option maxRecDepth 100000 in
theorem obs_maddpg (env : Env V) (g : Key → V) (extra : Key → Option V) :
    (init .maddpg env (arity .maddpg) (conf .maddpg g extra)).map (obsAll .maddpg) = .ok (expected .maddpg g) := by cbv

/-- A framework GAIL in a form that can be evaluated. -/
def initGailWith (ppo isFile : Bool) (n : Nat) (c : Key → Option V) : Except Err (Frame V) := do
  let _ ← need c .constrainedPolicyOptimization
  let pc ← need c (if ppo then .ppoConfig else .trpoConfig)
  let m ← need c .models
  let a ← need c .modelArgs
  let k ← need c .modelKwargs
  let o ← need c .optimizer
  let s ← need c .lrScheduler
  let path ← need c .expertTrajectoryPath
  match n with
  | 0 => .error .index
  | _ + 1 =>
    let kw := replaced c o none s
    let attrs ← construct Algo.gail.chain [.model 0 m a k false false]
      (fun x => if x = .constrainedPolicyOptimization then some (.policy ppo pc) else kw x)
    return { attrs := attrs, role := none, updates := true, expert := if isFile then some path else none }

theorem initGail_with (env : Env V) (n : Nat) (c : Key → Option V) (v w : V) (ppo : Bool)
    (h : c .constrainedPolicyOptimization = some v) (hp : env.policyKind v = some ppo) (hw : c .expertTrajectoryPath = some w) :
    initGail env n c = initGailWith ppo (env.isFile w) n c := by
  have e1 : need c .constrainedPolicyOptimization = .ok v := by unfold need; rw [h]
  have e2 : need c .expertTrajectoryPath = .ok w := by unfold need; rw [hw]
  unfold initGail initGailWith
  simp only [e1, e2, hp, Bind.bind, Except.bind]
  rfl

set_option maxRecDepth 100000 in
theorem obs_gail (ppo : Bool) (g : Key → V) (extra : Key → Option V) :
    (initGailWith ppo true 1 (conf .gail g extra)).map (obsAll .gail) = .ok (expected .gail g) := by cases ppo <;> cbv

set_option maxRecDepth 100000 in
theorem obs_gail_nofile (ppo : Bool) (g : Key → V) (extra : Key → Option V) :
    (initGailWith ppo false 1 (conf .gail g extra)).map (obsAll .gail) =
      .ok ((expected .gail g).map fun x => if x.1 = .expertTrajectoryPath then (x.1, none) else x) := by cases ppo <;> cbv

end Machin.Frames
