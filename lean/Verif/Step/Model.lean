import Verif.Base.Err

/-!
# Model of the `update` methods as programs over parameters, gradients and optimizers

What is kept of an update: which losses are computed from which parameters, when gradients are set to zero, accumulated, clipped and used, and when target
networks follow. Losses are given by their gradients; `N` names networks (their parameters are one value each), `L` names losses.
Sampling, the values of the losses and the modes `train`/`eval` are left out; a loss is named after its batch.
-/

namespace Machin.Step

variable {N L V O : Type} [DecidableEq N] [DecidableEq L]

/-- What the networks, losses and optimizers do.
`grad l θ n` is the gradient of the loss `l`, computed at the parameters `θ`, with respect to network `n`; `deps l` are the networks through which the
loss is differentiated (not those evaluated under `no_grad` or detached).
`clip` is `nn.utils.clip_grad_norm_`, `step` the step of the optimizer of a network: parameters, gradient, state of the optimizer.
`mix target source` is the value of `soft_update`, `clamp` is `entropy_alpha.clamp_` (sac.py:389-391). -/
structure Env (N L V O : Type) where
  grad : L → (N → V) → N → V
  deps : L → List N
  clip : V → V
  step : N → V → V → O → V × O
  mix : V → V → V
  clamp : V → V

/-- The graph that a forward pass leaves: the parameters it was computed from, and how often these had been changed in place. -/
structure Graph (N V : Type) where
  par : N → V
  version : N → Nat

/-- Parameters, accumulated gradients, optimizer states, versions of the parameters, `_update_counter`, the graphs of the losses, and for every backward pass
whether the function set by `set_backward_function` (base.py:78-84) did it. -/
structure St (N L V O : Type) where
  par : N → V
  grad : N → V
  opt : N → O
  version : N → Nat
  counter : Nat
  graph : L → Option (Graph N V)
  calls : List Bool

/-- `update_rate` and `update_steps` of the constructors. -/
inductive Scheme
  | rate
  | steps (k : Nat)
  | neither
  deriving DecidableEq

/-- The statements of the update methods. -/
inductive Cmd (N L : Type)
  /-- The loss is computed. -/
  | forward (l : L)
  /-- The loss `l` is computed from the parameters of its networks and from results of the forward pass of `l'`. -/
  | forwardFrom (l l' : L)
  /-- `net.zero_grad()` -/
  | zero (n : N)
  /-- `self._backward(loss)` (`hook`), or `loss.backward()`. -/
  | backward (l : L) (hook : Bool)
  /-- `nn.utils.clip_grad_norm_(net.parameters(), ...)` -/
  | clip (n : N)
  /-- `optim.step()` -/
  | step (n : N)
  /-- `optim.step()` of the optimizer `o`, which was built with the parameters of the network `n`. -/
  | stepOf (o n : N)
  /-- `entropy_alpha.clamp_(1e-6, 1e6)` -/
  | clamp (n : N)
  /-- Soft updates, or hard updates on schedule; `tick`: the counter is increased first. Pairs are target and source. -/
  | targets (sch : Scheme) (tick : Bool) (pairs : List (N × N))

/-- A function with one value replaced. -/
def set {A B : Type} [DecidableEq A] (f : A → B) (a : A) (b : B) : A → B := fun x => if x = a then b else f x

/-- `soft_update` / `hard_update` (utils.py:8-42) for all pairs in order. -/
def follow (f : V → V → V) (par : N → V) : List (N × N) → N → V
  | [] => par
  | (t, s) :: rest => follow f (set par t (f (par t) (par s))) rest

/-- Versions after changes in place of the given networks. -/
def bump (version : N → Nat) : List N → N → Nat
  | [] => version
  | n :: rest => bump (set version n (version n + 1)) rest

/-- One statement. A backward pass through parameters that were changed in place since the forward pass is a `RuntimeError`, as is a backward pass of a loss
that was not computed. -/
def exec [Add V] [Zero V] (env : Env N L V O) (s : St N L V O) : Cmd N L → Except Err (St N L V O)
  | .forward l => .ok { s with graph := set s.graph l (some ⟨s.par, s.version⟩) }
  | .forwardFrom l l' => match s.graph l' with
    | none => .error .runtime
    | some g => .ok { s with graph := set s.graph l (some ⟨fun n => if n ∈ env.deps l then s.par n else g.par n, s.version⟩) }
  | .zero n => .ok { s with grad := set s.grad n 0 }
  | .backward l hook => match s.graph l with
    | none => .error .runtime
    | some g =>
      if (env.deps l).all fun n => decide (s.version n = g.version n) then
        .ok { s with grad := fun n => if n ∈ env.deps l then s.grad n + env.grad l g.par n else s.grad n, calls := s.calls ++ [hook] }
      else .error .runtime
  | .clip n => .ok { s with grad := set s.grad n (env.clip (s.grad n)) }
  | .step n =>
    let r := env.step n (s.par n) (s.grad n) (s.opt n)
    .ok { s with par := set s.par n r.1, opt := set s.opt n r.2, version := bump s.version [n] }
  | .stepOf o n =>
    let r := env.step o (s.par n) (s.grad n) (s.opt o)
    .ok { s with par := set s.par n r.1, opt := set s.opt o r.2, version := bump s.version [n] }
  | .clamp n => .ok { s with par := set s.par n (env.clamp (s.par n)), version := bump s.version [n] }
  | .targets sch tick pairs =>
    let s := if tick ∧ sch ≠ .rate then { s with counter := s.counter + 1 } else s
    match sch with
    | .rate => .ok { s with par := follow env.mix s.par pairs, version := bump s.version (pairs.map (·.1)) }
    | .neither => .error .type
    | .steps 0 => .error .zeroDiv
    | .steps (k + 1) =>
      if s.counter % (k + 1) = 0 then .ok { s with par := follow (fun _ x => x) s.par pairs, version := bump s.version (pairs.map (·.1)) }
      else .ok s

/-- A sequence of statements. -/
def run [Add V] [Zero V] (env : Env N L V O) : List (Cmd N L) → St N L V O → Except Err (St N L V O)
  | [], s => .ok s
  | c :: cs, s => match exec env s c with
    | .error e => .error e
    | .ok s => run env cs s

/-! ## The programs -/

/-- `net.zero_grad(); backward(loss); clip_grad_norm_(net.parameters(), ...); optim.step()`, the block that trains one network (for instance
ddpg.py:429-433). -/
def train (n : N) (l : L) (hook : Bool) : List (Cmd N L) := [.zero n, .backward l hook, .clip n, .step n]

/-- The block under a flag. -/
def trainIf (b : Bool) (n : N) (l : L) (hook : Bool) : List (Cmd N L) := if b then train n l hook else []

/-- The arguments of an update. -/
structure Flags where
  value : Bool
  policy : Bool
  target : Bool

/-- The networks of the single-agent algorithms (`alpha` is `entropy_alpha` of SAC). -/
inductive Net
  | actor | actorTarget | critic | criticTarget | critic2 | critic2Target | qnet | qnetTarget | discriminator | alpha
  deriving DecidableEq

/-- The losses, with the number of the batch in loops. -/
inductive Loss
  | value | value2 | policy | alpha
  | valueAt (i : Nat) | policyAt (i : Nat) | discrim (i : Nat)
  deriving DecidableEq

/-- `DDPG.update` (ddpg.py:398-463), and `HDDPG.update` (hddpg.py:106-177) and `DDPGPer.update` (ddpg_per.py:100-181), which differ in the losses. -/
def ddpg (sch : Scheme) (f : Flags) : List (Cmd Net Loss) :=
  [.forward .value] ++ trainIf f.value .critic .value true ++ [.forward .policy] ++ trainIf f.policy .actor .policy true ++
    if f.target then [.targets sch true [(.actorTarget, .actor), (.criticTarget, .critic)]] else []

/-- `TD3.update` (td3.py:177-257). -/
def td3 (sch : Scheme) (f : Flags) : List (Cmd Net Loss) :=
  [.forward .value, .forward .value2] ++ trainIf f.value .critic .value false ++ trainIf f.value .critic2 .value2 false ++
    [.forward .policy] ++ trainIf f.policy .actor .policy false ++
    if f.target then [.targets sch true [(.actorTarget, .actor), (.criticTarget, .critic), (.critic2Target, .critic2)]] else []

/-- `SAC.update` (sac.py:301-397); `entropy`: `update_entropy_alpha and self.target_entropy is not None`. -/
def sac (sch : Scheme) (f : Flags) (entropy : Bool) : List (Cmd Net Loss) :=
  [.forward .value, .forward .value2] ++ trainIf f.value .critic .value false ++ trainIf f.value .critic2 .value2 false ++
    [.forward .policy] ++ trainIf f.policy .actor .policy false ++
    (if f.target then [.targets sch true [(.criticTarget, .critic), (.critic2Target, .critic2)]] else []) ++
    if entropy then [.forwardFrom .alpha .policy, .zero .alpha, .backward .alpha false, .step .alpha, .clamp .alpha] else []

/-- The modes of `DQN` (dqn.py:357-466). -/
inductive Mode
  | vanilla | fixedTarget | double

/-- `DQN.update` (dqn.py:347-471) in its modes; the constructor refuses `update_steps` in the mode "fixed_target" only by failing in `soft_update`, so the
scheme is the rate there. `DQNPer.update` (dqn_per.py:91-161) and `RAINBOW.update` (rainbow.py:203-329) are those of the mode "double". -/
def dqn (mode : Mode) (sch : Scheme) (f : Flags) : List (Cmd Net Loss) :=
  match mode with
  | .vanilla => [.forward .value] ++ trainIf f.value .qnet .value false
  | .fixedTarget => [.forward .value] ++ trainIf f.value .qnet .value true ++
    if f.target then [.targets (match sch with | .rate => .rate | _ => .neither) false [(.qnetTarget, .qnet)]] else []
  | .double => [.forward .value] ++ trainIf f.value .qnet .value true ++ if f.target then [.targets sch true [(.qnetTarget, .qnet)]] else []

/-- `A2C.update` (a2c.py:343-423) and `PPO.update` (ppo.py:104-214); `hook`: the backward function used is the one that was set. -/
def a2c (hook : Bool) (actorTimes criticTimes : Nat) (f : Flags) : List (Cmd Net Loss) :=
  ((List.range actorTimes).flatMap fun i => .forward (.policyAt i) :: trainIf f.policy .actor (.policyAt i) hook) ++
    (List.range criticTimes).flatMap fun i => .forward (.valueAt i) :: trainIf f.value .critic (.valueAt i) hook

/-- `IMPALA.update` (impala.py:298-392). -/
def impala (f : Flags) : List (Cmd Net Loss) :=
  [.forward .policy, .forward .value] ++ trainIf f.policy .actor .policy true ++ trainIf f.value .critic .value true

/-- `GAIL.update` with PPO (gail.py:268-320). `discriminator_optim` was built with the parameters of the actor (gail.py:160-162). The inner PPO has a
backward function of its own, which is not the one set for GAIL. -/
def gail (discrim : Bool) (discrimTimes actorTimes criticTimes : Nat) (f : Flags) : List (Cmd Net Loss) :=
  ((List.range discrimTimes).flatMap fun i => .forward (.discrim i) ::
    if discrim then [.zero .discriminator, .backward (.discrim i) true, .clip .discriminator, .stepOf .discriminator .actor] else []) ++
    a2c false actorTimes criticTimes f

/-! ## MADDPG -/

/-- The networks of MADDPG: sub-policies of agents, critics of agents. -/
inductive MNet
  | actor (a e : Nat) | actorTarget (a e : Nat) | critic (a : Nat) | criticTarget (a : Nat)
  deriving DecidableEq

inductive MLoss
  | value (a e : Nat) | policy (a e : Nat)
  deriving DecidableEq

/-- `MADDPG._update_sub_policy` for sub-policy `e` of agent `a` (maddpg.py:752-917). The counter was increased by `update` (maddpg.py:597). -/
def subPolicy (sch : Scheme) (f : Flags) (a e : Nat) : List (Cmd MNet MLoss) :=
  [.forward (.value a e)] ++ trainIf f.value (.critic a) (.value a e) true ++ [.forward (.policy a e)] ++
    trainIf f.policy (.actor a e) (.policy a e) true ++
    if f.target then [.targets sch false [(.actorTarget a e, .actor a e), (.criticTarget a, .critic a)]] else []

/-- The tasks of `MADDPG.update` (maddpg.py:596-634): all sub-policies of all agents. -/
def tasks (sch : Scheme) (f : Flags) (agents ensemble : Nat) : List (List (Cmd MNet MLoss)) :=
  (List.range ensemble).flatMap fun e => (List.range agents).map fun a => subPolicy sch f a e

/-- The thread pool: the workers run their tasks, one statement at a time in the order of the schedule (numbers of tasks). A number whose task is finished
does nothing; an exception ends the run. -/
def pool [Add V] [Zero V] (env : Env N L V O) : List Nat → List (List (Cmd N L)) → St N L V O → Except Err (List (List (Cmd N L)) × St N L V O)
  | [], ts, s => .ok (ts, s)
  | i :: sched, ts, s => match ts[i]? with
    | some (c :: cs) => match exec env s c with
      | .error e => .error e
      | .ok s => pool env sched (ts.set i cs) s
    | _ => pool env sched ts s

end Machin.Step
