import Verif.Algo.Sched

/-! # The schedulers and optimizers that algorithms report (`lr_schedulers`, `optimizers`, `machin/frame/algorithms/*.py`)

`configure_ddp` of the launcher plugins hands both lists to the trainer (`machin/auto/pl_plugin.py` lines 75-81). -/

namespace Machin.Algo

/-- The attribute of a slot, if it exists (`hasattr`). -/
def attr (schs : List Sch) (s : Slot) : Option Sch := schs.find? fun x => x.slot = s

/-- The attributes named in `lr_schedulers`: those of one list are reported together, if all of them exist (dqn.py:224-227, ddpg.py:188-191, td3.py:141-148,
sac.py:204-217, a2c.py:234-237, impala.py:171-174, gail.py:192-198, ars.py:426-429; the others inherit). -/
def SAlgo.blocks : SAlgo → List (List Slot)
  | .dqn | .dqnApex => [[.qnet]]
  | .ddpg | .ddpgApex | .a2c | .ppo | .trpo | .impala => [[.actor, .critic]]
  | .td3 => [[.actor, .critic, .critic2]]
  | .sac => [[.actor, .critic, .critic2, .alpha]]
  | .gail => [[.actor, .critic], [.discriminator]]
  | .ars => [[.actor]]

/-- `lr_schedulers` (same lines). -/
def lrSchedulers (a : SAlgo) (schs : List Sch) : List Sch :=
  a.blocks.flatMap fun b => if b.all fun s => (attr schs s).isSome then b.filterMap (attr schs) else []

/-- `optimizers` (dqn.py:216-217, ddpg.py:180-181, td3.py:133-134, sac.py:186-192, a2c.py:226-227, impala.py:163-164, gail.py:184-185, ars.py:418-419): the
attributes whose optimizers are listed. -/
def SAlgo.optimSlots : SAlgo → List Slot
  | .dqn | .dqnApex => [.qnet]
  | .ddpg | .ddpgApex | .a2c | .ppo | .trpo | .impala => [.actor, .critic]
  | .td3 => [.actor, .critic, .critic2]
  | .sac => [.actor, .critic, .critic2, .alpha]
  | .gail => [.actor, .critic, .discriminator]
  | .ars => [.actor]

/-- `lr_schedulers` of MADDPG (maddpg.py:323-326). -/
def lrSchedulersMaddpg (schs : List Sch × List Sch) : List Sch := schs.1 ++ schs.2

/-- `optimizers` of MADDPG (maddpg.py:308-309): `sum(self.actor_optims, self.critic_optims)` begins with the critics. -/
def optimSlotsMaddpg (subs : List Nat) (critics : Nat) : List Slot :=
  ((List.range subs.length).zip subs).foldl (fun l e => l ++ (List.range e.2).map fun j => .actorOf e.1 j) ((List.range critics).map .criticOf)

end Machin.Algo
