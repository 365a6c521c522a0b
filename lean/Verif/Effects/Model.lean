import Verif.Base.Err

/-!
# Model of the effects of `update` on modes, pictures and optimizers

`machin/frame/algorithms/*.py`, the `update` methods: which networks are put into training and evaluation mode, which graphs
are drawn (`visualize_model`, base.py:160-172), which backward passes are made, and which optimizers are stepped, in order;
together with the `optimizers` properties and their setters, `_is_top` and `enable_multiprocessing` (base.py:86-92).
The numbers that are computed in between are the subject of the areas `Algo`, `Step` and `Maddpg`. A buffer with something in
it is assumed, except for MADDPG, which looks (maddpg.py:545-547). The pool of MADDPG is one of threads (`pool_type="thread"`);
the workers of a process pool change the mode of copies.
-/

namespace Machin.Effects

/-- The algorithms; `gail tr` has a TRPO (`tr = true`) or PPO inside. -/
inductive Alg
  | dqn | dqnPer | dqnApex | rainbow | ddpg | ddpgPer | ddpgApex | hddpg | td3 | sac | a2c | a3c | ppo | trpo | gail (tr : Bool)
  | impala | ars | maddpg
  deriving DecidableEq, Repr

/-- The networks, by attribute; those of MADDPG by agent and member of the ensemble. -/
inductive Net
  | actor | critic | critic2 | actorTarget | criticTarget | critic2Target | qnet | qnetTarget | discriminator
  | actorOf (a p : Nat) | criticOf (a : Nat) | actorTargetOf (a p : Nat) | criticTargetOf (a : Nat)
  deriving DecidableEq, Repr

/-- The places where optimizers are kept; `innerActor` and `innerCritic` are `actor_optim` and `critic_optim` of the framework
inside GAIL. -/
inductive Slot
  | actor | critic | critic2 | alpha | qnet | discriminator | innerActor | innerCritic
  | actorOf (a p : Nat) | criticOf (a : Nat)
  deriving DecidableEq, Repr

/-- What the settings and the arguments of `update` decide. `zeroGrad`: TRPO finds a zero gradient (trpo.py:243-248);
`manager`: ARS runs in the first member; `empty`: the buffers of MADDPG are empty. -/
structure Flags where
  value : Bool
  policy : Bool
  discriminator : Bool
  alpha : Bool
  visualize : Bool
  visualizeInner : Bool
  zeroGrad : Bool
  manager : Bool
  empty : Bool
  actorTimes : Nat
  criticTimes : Nat
  discriminatorTimes : Nat
  agents : Nat
  ensemble : Nat
  deriving Repr

/-- The effects. `draw` is `visualize_model`, `drawAlways` the static `_visualize` of MADDPG. -/
inductive Eff
  | train (n : Net)
  | eval (n : Net)
  | draw (n : Net)
  | drawAlways (n : Net)
  | backward (n : Net)
  | step (s : Slot)
  | clear
  deriving DecidableEq, Repr

/-- `if b:` -/
def block (b : Bool) (l : List Eff) : List Eff := if b then l else []

/-- `for _ in range(k):` -/
def loop (k : Nat) (l : List Eff) : List Eff := (List.replicate k l).flatten

/-- `DQN.update` (dqn.py:356-474, the same in all three modes), `DQNPer.update` (dqn_per.py:93-161), `RAINBOW.update`
(rainbow.py:208-330); `DQNApex.update` (apex.py:141-150) pushes the model afterwards. -/
def dqnProg (f : Flags) : List Eff :=
  [.train .qnet] ++ block f.visualize [.draw .qnet] ++ block f.value [.backward .qnet, .step .qnet] ++ [.eval .qnet]

/-- `DDPG.update` (ddpg.py:398-466), `DDPGPer.update` (ddpg_per.py:101-185), `HDDPG.update` (hddpg.py:107-181);
`DDPGApex.update` (apex.py:414-430) pushes the model afterwards. -/
def ddpgProg (f : Flags) : List Eff :=
  [.train .actor, .train .critic] ++ block f.visualize [.draw .critic] ++ block f.value [.backward .critic, .step .critic] ++
    block f.visualize [.draw .actor] ++ block f.policy [.backward .actor, .step .actor] ++ [.eval .actor, .eval .critic]

/-- `TD3.update` (td3.py:178-260). -/
def td3Prog (f : Flags) : List Eff :=
  [.train .actor, .train .critic, .train .critic2] ++ block f.visualize [.draw .critic] ++
    block f.value [.backward .critic, .step .critic, .backward .critic2, .step .critic2] ++
    block f.visualize [.draw .actor] ++ block f.policy [.backward .actor, .step .actor] ++
    [.eval .actor, .eval .critic, .eval .critic2]

/-- `SAC.update` (sac.py:301-397); `alpha`: `update_entropy_alpha` and a target entropy (380-391). -/
def sacProg (f : Flags) : List Eff :=
  [.train .actor, .train .critic, .train .critic2] ++ block f.visualize [.draw .critic] ++
    block f.value [.backward .critic, .step .critic, .backward .critic2, .step .critic2] ++
    block f.visualize [.draw .actor] ++ block f.policy [.backward .actor, .step .actor] ++ block f.alpha [.step .alpha] ++
    [.eval .actor, .eval .critic, .eval .critic2]

/-- `A2C.update` (a2c.py:345-422) and `PPO.update` (ppo.py:114-214), with the places of the two optimizers. -/
def a2cProg (sa sc : Slot) (vis : Bool) (f : Flags) : List Eff :=
  [.train .actor, .train .critic] ++
    loop f.actorTimes (block vis [.draw .actor] ++ block f.policy [.backward .actor, .step sa]) ++
    loop f.criticTimes (block vis [.draw .critic] ++ block f.value [.backward .critic, .step sc]) ++
    [.clear, .eval .actor, .eval .critic]

/-- `A3C.update` (a3c.py:156-166): that of A2C with optimizers whose `step` does nothing (109-111). -/
def a3cProg (f : Flags) : List Eff :=
  [.train .actor, .train .critic] ++
    loop f.actorTimes (block f.visualize [.draw .actor] ++ block f.policy [.backward .actor]) ++
    loop f.criticTimes (block f.visualize [.draw .critic] ++ block f.value [.backward .critic]) ++
    [.clear, .eval .actor, .eval .critic]

/-- `TRPO.update` (trpo.py:190-302): the gradient of the actor is taken once (238-240), the actor is moved by a line search and
not by its optimizer; with a zero gradient the method returns at once (243-248). -/
def trpoProg (sc : Slot) (vis : Bool) (f : Flags) : List Eff :=
  [.train .actor, .train .critic] ++ block vis [.draw .actor] ++ block f.policy [.backward .actor] ++
    (if f.policy && f.zeroGrad then []
     else loop f.criticTimes (block vis [.draw .critic] ++ block f.value [.backward .critic, .step sc]) ++
       [.clear, .eval .actor, .eval .critic])

/-- `GAIL.update` (gail.py:268-318). -/
def gailProg (tr : Bool) (f : Flags) : List Eff :=
  [.train .actor, .train .critic, .train .discriminator] ++
    loop f.discriminatorTimes
      (block f.discriminator [.backward .discriminator, .step .discriminator] ++ block f.visualize [.draw .discriminator]) ++
    (if tr then trpoProg .innerCritic f.visualizeInner f else a2cProg .innerActor .innerCritic f.visualizeInner f) ++
    [.eval .actor, .eval .critic, .eval .discriminator]

/-- `IMPALA.update` (impala.py:264-397). -/
def impalaProg (f : Flags) : List Eff :=
  [.train .actor, .train .critic] ++ block f.policy [.backward .actor, .step .actor] ++
    block f.value [.backward .critic, .step .critic] ++ [.eval .actor, .eval .critic]

/-- `ARS.update` (ars.py:504-602): the manager writes the gradient itself and steps (565-570). -/
def arsProg (f : Flags) : List Eff := block f.manager [.step .actor]

/-- `MADDPG._update_sub_policy` (maddpg.py:803-916) for an agent and a member of the ensemble. -/
def maddpgTask (f : Flags) (a p : Nat) : List Eff :=
  [.train (.actorOf a p), .train (.criticOf a)] ++ block f.visualize [.drawAlways (.criticOf a)] ++
    block f.value [.backward (.criticOf a), .step (.criticOf a)] ++ block f.visualize [.drawAlways (.actorOf a p)] ++
    block f.policy [.backward (.actorOf a p), .step (.actorOf a p)] ++ [.eval (.actorOf a p), .eval (.criticOf a)]

/-- The tasks of an update, in the order they are put into the pool (maddpg.py:590-627). All but MADDPG have one. -/
def tasks : Alg → Flags → List (List Eff)
  | .dqn, f | .dqnPer, f | .dqnApex, f | .rainbow, f => [dqnProg f]
  | .ddpg, f | .ddpgPer, f | .ddpgApex, f | .hddpg, f => [ddpgProg f]
  | .td3, f => [td3Prog f]
  | .sac, f => [sacProg f]
  | .a2c, f | .ppo, f => [a2cProg .actor .critic f.visualize f]
  | .a3c, f => [a3cProg f]
  | .trpo, f => [trpoProg .critic f.visualize f]
  | .gail tr, f => [gailProg tr f]
  | .impala, f => [impalaProg f]
  | .ars, f => [arsProg f]
  | .maddpg, f =>
    if f.empty then [] else (List.range f.ensemble).flatMap fun p => (List.range f.agents).map fun a => maddpgTask f a p

/-- What a run of some tasks on the threads of a pool may look like: a list of effects with the number of their task, in which
the effects of every task are in order. -/
def Interleaving (ts : List (List Eff)) (tr : List (Nat × Eff)) : Prop :=
  (∀ x ∈ tr, x.1 < ts.length) ∧ ∀ k, (tr.filter (·.1 == k)).map (·.2) = ts.getD k []

/-- The mode of a network (`true`: training) after some effects. -/
def mode (n : Net) (m : Bool) : List Eff → Bool
  | [] => m
  | .train n' :: l => mode n (if n' = n then true else m) l
  | .eval n' :: l => mode n (if n' = n then false else m) l
  | _ :: l => mode n m l

/-- The pictures: `_visualized` and the list of what was drawn (base.py:160-172, maddpg.py:918-923). -/
def draws : List Net → List Eff → List Net × List Net
  | seen, [] => (seen, [])
  | seen, .draw n :: l =>
    if n ∈ seen then draws seen l else let r := draws (n :: seen) l; (r.1, n :: r.2)
  | seen, .drawAlways n :: l => let r := draws seen l; (r.1, n :: r.2)
  | seen, _ :: l => draws seen l

/-- The optimizers of a framework, as identities. -/
abbrev Store := Slot → Nat

/-- The optimizers stepped, in order. -/
def stepped (o : Store) : List Eff → List Nat
  | [] => []
  | .step s :: l => o s :: stepped o l
  | _ :: l => stepped o l

/-- Agents and members of the ensemble, agent by agent. -/
def pairs (f : Flags) : List (Nat × Nat) := (List.range f.agents).flatMap fun a => (List.range f.ensemble).map fun p => (a, p)

/-- The places read by the property `optimizers`, in order: dqn.py:216-217, ddpg.py:180-181, td3.py:133-134, sac.py:186-192,
a2c.py:226-227, a3c.py:115-117, gail.py:184-185, impala.py:163-164, ars.py:418-419, maddpg.py:308-309 (`sum` begins with the
critics). -/
def reads : Alg → Flags → List Slot
  | .dqn, _ | .dqnPer, _ | .dqnApex, _ | .rainbow, _ => [.qnet]
  | .ddpg, _ | .ddpgPer, _ | .ddpgApex, _ | .hddpg, _ | .a2c, _ | .ppo, _ | .trpo, _ | .impala, _ => [.actor, .critic]
  | .td3, _ => [.actor, .critic, .critic2]
  | .sac, _ => [.actor, .critic, .critic2, .alpha]
  | .a3c, _ => []
  | .gail _, _ => [.actor, .critic, .discriminator]
  | .ars, _ => [.actor]
  | .maddpg, f => (List.range f.agents).map .criticOf ++ (pairs f).map fun x => .actorOf x.1 x.2

/-- The places written by the setter, in order (maddpg.py:311-320 begins with the actors). -/
def writes : Alg → Flags → List Slot
  | .maddpg, f => ((pairs f).map fun x => .actorOf x.1 x.2) ++ (List.range f.agents).map .criticOf
  | alg, f => reads alg f

/-- `framework.optimizers`. -/
def getOpts (alg : Alg) (f : Flags) (o : Store) : List Nat := (reads alg f).map o

/-- Assign a list to some places, one after the other. -/
def assign : Store → List Slot → List Nat → Store
  | o, s :: ss, x :: xs => assign (fun s' => if s' = s then x else o s') ss xs
  | o, _, _ => o

/-- `framework.optimizers = new`. -/
def setOpts (alg : Alg) (f : Flags) (o : Store) (new : List Nat) : Store := assign o (writes alg f) new

/-- After the constructor GAIL has the optimizers of the framework inside (gail.py:148-149), and all others are different. -/
def Built (alg : Alg) (o : Store) : Prop :=
  match alg with
  | .gail _ => o .actor = o .innerActor ∧ o .critic = o .innerCritic ∧ o .actor ≠ o .critic ∧
      o .actor ≠ o .discriminator ∧ o .critic ≠ o .discriminator
  | _ => ∀ s s', o s = o s' → s = s'

/-- The networks of a framework: what it trains, and the target networks. -/
def nets : Alg → Flags → List Net
  | .dqn, _ | .dqnPer, _ | .dqnApex, _ | .rainbow, _ => [.qnet, .qnetTarget]
  | .ddpg, _ | .ddpgPer, _ | .ddpgApex, _ | .hddpg, _ => [.actor, .critic, .actorTarget, .criticTarget]
  | .td3, _ => [.actor, .critic, .critic2, .actorTarget, .criticTarget, .critic2Target]
  | .sac, _ => [.actor, .critic, .critic2, .criticTarget, .critic2Target]
  | .a2c, _ | .a3c, _ | .ppo, _ | .trpo, _ | .impala, _ => [.actor, .critic]
  | .gail _, _ => [.actor, .critic, .discriminator]
  | .ars, _ => [.actor]
  | .maddpg, f => (List.range f.agents).map .criticOf ++ (pairs f).map (fun x => .actorOf x.1 x.2) ++
      (List.range f.agents).map .criticTargetOf ++ (pairs f).map (fun x => .actorTargetOf x.1 x.2)

/-- The networks below `_is_top` (dqn.py:27, ddpg.py:36, td3.py:11-18, sac.py:28, a2c.py:25, gail.py:65, impala.py:74,
ars.py:276, maddpg.py:57 with 235-245): what `enable_multiprocessing` (base.py:86-92) puts into shared memory and what the
launcher registers (auto/launcher.py:35-37, 190-193). -/
def topNets : Alg → Flags → List Net
  | .dqn, _ | .dqnPer, _ | .dqnApex, _ | .rainbow, _ => [.qnet, .qnetTarget]
  | .ddpg, _ | .ddpgPer, _ | .ddpgApex, _ | .hddpg, _ => [.actor, .critic, .actorTarget, .criticTarget]
  | .td3, _ => [.actor, .critic, .critic2, .actorTarget, .criticTarget, .critic2Target]
  | .sac, _ => [.actor, .critic, .critic2, .criticTarget, .critic2Target]
  | .a2c, _ | .a3c, _ | .ppo, _ | .trpo, _ => [.actor, .critic]
  | .gail _, _ => [.actor, .critic, .discriminator]
  | .impala, _ => [.actor, .critic]
  | .ars, _ => [.actor]
  | .maddpg, f => (pairs f).map (fun x => .actorTargetOf x.1 x.2) ++ (List.range f.agents).map .criticTargetOf

end Machin.Effects
