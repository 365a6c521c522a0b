import Verif.Effects.Model

/-! What `update` should draw, framework by framework. -/

namespace Machin.Effects

/-- The networks a framework asks to be drawn. -/
def asked (alg : Alg) (f : Flags) : List Net :=
  let a2c (vis : Bool) : List Net :=
    (if vis && f.actorTimes != 0 then [.actor] else []) ++ if vis && f.criticTimes != 0 then [.critic] else []
  let trpo (vis : Bool) : List Net :=
    (if vis then [.actor] else []) ++
      if vis && f.criticTimes != 0 && !(f.policy && f.zeroGrad) then [.critic] else []
  match alg with
  | .dqn | .dqnPer | .dqnApex | .rainbow => if f.visualize then [.qnet] else []
  | .ddpg | .ddpgPer | .ddpgApex | .hddpg | .td3 | .sac => if f.visualize then [.actor, .critic] else []
  | .a2c | .a3c | .ppo => a2c f.visualize
  | .trpo => trpo f.visualize
  | .gail b => (if f.visualize && f.discriminatorTimes != 0 then [.discriminator] else []) ++
      if b then trpo f.visualizeInner else a2c f.visualizeInner
  | .impala | .ars | .maddpg => []

end Machin.Effects
