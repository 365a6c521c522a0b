import Verif.Base.Err

/-!
# Model of the training loops of PPO, GAIL and A3C

`machin/frame/algorithms/ppo.py`, `gail.py`, `a3c.py`, `a2c.py` at the level of networks: which parameters are read, which gradients
are computed, which optimizer changes which network. Parameters (and gradients) are values of any type `P`; the gradient of a loss is
a parameter of the model (a function of the parameters in use), an optimizer is a function from parameters and gradient to new
parameters. Sampling and `train()`/`eval()` are outside.
-/

namespace Machin.Algo

variable {P : Type}

/-- A network: its parameters and the gradient stored with them (`none`: no gradient yet). -/
structure Net (P : Type) where
  params : P
  grad : Option P
  deriving DecidableEq, Repr

/-- `optimizer.step()` on a network: parameters without gradient are skipped. -/
def Net.optStep (opt : P → P → P) (n : Net P) : Net P :=
  match n.grad with
  | none => n
  | some g => { n with params := opt n.params g }

/-! ### PPO -/

/-- The networks are objects: a heap, the object `self.actor` refers to, the object whose parameters `self.actor_optim` was built
with, and the number of objects created. -/
structure Ppo (P : Type) where
  heap : Nat → Net P
  actor : Nat
  optim : Nat
  next : Nat

/-- Assign one object of the heap. -/
def assign (h : Nat → Net P) (i : Nat) (n : Net P) : Nat → Net P := fun j => if j = i then n else h j

/-- `tmp_actor = deepcopy(self.actor)` (ppo.py:112): a new object. -/
def Ppo.copyActor (s : Ppo P) : Ppo P × Nat :=
  ({ s with heap := assign s.heap s.next (s.heap s.actor), next := s.next + 1 }, s.next)

/-- `self.actor.zero_grad()`, `self._backward(loss)`, `self.actor_optim.step()` (ppo.py:176-180): the gradient `g` is stored in the
network `self.actor` refers to, the optimizer changes the network it was built with. Clipping is part of `g`. -/
def Ppo.train (opt : P → P → P) (s : Ppo P) (g : P) : Ppo P :=
  let h := assign s.heap s.actor { s.heap s.actor with grad := some g }
  { s with heap := assign h s.optim ((h s.optim).optStep opt) }

/-- One iteration of the actor loop (ppo.py:117-181). `fails` says that the evaluation with the old actor raises (an exception `e` of the
user's network). The result also has the parameters with which the old and the new log probabilities were computed. -/
def Ppo.iteration (opt : P → P → P) (grad : P → P → P) (update : Bool) (e : Option Err) (tmp : Nat) (s : Ppo P) :
    Ppo P × Except Err (P × P) :=
  -- self.actor, tmp_actor = tmp_actor, self.actor
  let swapped := { s with actor := tmp }
  let tmp' := s.actor
  match e with
  | some e => (swapped, .error e)
  | none =>
    let old := (swapped.heap swapped.actor).params
    let back := { swapped with actor := tmp' }
    let new := (back.heap back.actor).params
    (if update then back.train opt (grad old new) else back, .ok (old, new))

/-- The actor loop: one entry of the list per iteration. The log of the parameters used, and the exception if there is one. -/
def Ppo.loop (opt : P → P → P) (grad : P → P → P) (update : Bool) (tmp : Nat) : Ppo P → List (Option Err) → Ppo P × List (P × P) × Option Err
  | s, [] => (s, [], none)
  | s, e :: es =>
    match s.iteration opt grad update e tmp with
    | (s', .error e) => (s', [], some e)
    | (s', .ok p) => ((s'.loop opt grad update tmp es).1, p :: (s'.loop opt grad update tmp es).2.1, (s'.loop opt grad update tmp es).2.2)

/-- The actor part of `update` (ppo.py:104-181). -/
def Ppo.update (opt : P → P → P) (grad : P → P → P) (update : Bool) (s : Ppo P) (es : List (Option Err)) : Ppo P × List (P × P) × Option Err :=
  s.copyActor.1.loop opt grad update s.copyActor.2 es

/-- Not a function of the code: several updates; exceptions are caught by the caller. -/
def Ppo.updates (opt : P → P → P) (grad : P → P → P) : Ppo P → List (Bool × List (Option Err)) → Ppo P
  | s, [] => s
  | s, u :: us => Ppo.updates opt grad (s.update opt grad u.1 u.2).1 us

/-! ### GAIL -/

/-- The three networks of GAIL. -/
structure Gail (P : Type) where
  actor : Net P
  critic : Net P
  disc : Net P
  deriving DecidableEq, Repr

/-- One iteration of the discriminator loop (gail.py:273-306) with the gradient `g` of the discriminator loss: `discriminator.zero_grad()`,
`_backward` and clipping store it in the discriminator; `discriminator_optim` was built with `self.actor.parameters()`
(gail.py:160-162), so its `step()` changes the actor. -/
def Gail.discIteration (optD : P → P → P) (update : Bool) (g : P) (s : Gail P) : Gail P :=
  if update then
    let s := { s with disc := { s.disc with grad := some g } }
    { s with actor := s.actor.optStep optD }
  else s

/-- The discriminator loop: `g s` is the gradient in the current state; `n` iterations. -/
def Gail.discLoop (optD : P → P → P) (update : Bool) (g : Gail P → P) : Nat → Gail P → Gail P
  | 0, s => s
  | n + 1, s => (s.discIteration optD update (g s)).discLoop optD update g n

/-- `constrained_policy_optimization.update` (gail.py:309-313) as a list of iterations: each stores a gradient in one of its two networks
and lets the optimizer of that network make a step. -/
def Gail.policyLoop (optA optC : P → P → P) : List (Bool × P) → Gail P → Gail P
  | [], s => s
  | (true, g) :: rest, s => Gail.policyLoop optA optC rest { s with actor := ({ s.actor with grad := some g } : Net P).optStep optA }
  | (false, g) :: rest, s => Gail.policyLoop optA optC rest { s with critic := ({ s.critic with grad := some g } : Net P).optStep optC }

/-- `update` (gail.py:247-318): `times` is `discriminator_update_times`, `inner s` the iterations of the inner update. -/
def Gail.update (optD optA optC : P → P → P) (g : Gail P → P) (times : Nat) (updateD : Bool) (inner : Gail P → List (Bool × P)) (s : Gail P) : Gail P :=
  let s := s.discLoop optD updateD g times
  s.policyLoop optA optC (inner s)

/-- Not a function of the code: several updates. -/
def Gail.updates (optD optA optC : P → P → P) (g : Gail P → P) (times : Nat) (inner : Gail P → List (Bool × P)) : List Bool → Gail P → Gail P
  | [], s => s
  | b :: bs, s => Gail.updates optD optA optC g times inner bs (s.update optD optA optC g times b inner)

/-- An element of an expert episode: a dictionary of constructor arguments, or an `ExpertTransition`. -/
inductive ExpertItem (T : Type)
  | dict (t : T)
  | trans (t : T)
  deriving DecidableEq, Repr

/-- The content of an element. -/
def ExpertItem.content {T : Type} : ExpertItem T → T
  | .dict t => t
  | .trans t => t

/-- The list built by `store_expert_episode` (gail.py:240-242), which is then stored: a comprehension with a condition. -/
def expertEpisode {T : Type} (episode : List (ExpertItem T)) : List T :=
  episode.filterMap fun | .dict t => some t | .trans _ => none

/-! ### A3C -/

/-- A worker of A3C: its two networks, whether it synchronises when acting. -/
structure A3c (P : Type) where
  actor : Net P
  critic : Net P
  syncing : Bool
  deriving DecidableEq, Repr

/-- One of the two loops of `A2C.update` (a2c.py:345-383, 385-411) with the disabled optimizer of A3C (a3c.py:109-110): every iteration stores
its gradient, after clearing the one before; nothing is stepped. An entry of the list is the gradient of an iteration, or the exception
that its evaluation raises. -/
def gradLoop (update : Bool) : Net P → List (Except Err P) → Net P × Option Err
  | n, [] => (n, none)
  | n, .error e :: _ => (n, some e)
  | n, .ok g :: rest => gradLoop update (if update then { n with grad := some g } else n) rest

/-- `PushPullGradServer.push` (param_server.py:164-185): `RuntimeError` without gradient; otherwise the gradient sent, and the model as
pulled (`pulled`, if the server has one) with its gradient cleared: `zero_grad` leaves zeros, or nothing in newer versions of torch
(`zero` is what it leaves). -/
def pushGrad (zero : Option P) (pulled : Option P) (n : Net P) : Except Err (P × Net P) :=
  match n.grad with
  | none => .error .runtime
  | some g => .ok (g, ⟨pulled.getD n.params, zero⟩)

/-- What `update` does to the outside. -/
structure A3cOut (P : Type) where
  sentActor : Option P
  sentCritic : Option P
  error : Option Err
  /-- whether the losses are returned -/
  losses : Bool
  deriving DecidableEq, Repr

/-- `A3C.update` (a3c.py:156-165). -/
def A3c.update (zero : Option P) (pulledA pulledC : Option P) (updateValue updatePolicy : Bool) (gradsA gradsC : List (Except Err P)) (s : A3c P) :
    A3c P × A3cOut P :=
  let org := s.syncing
  let s := { s with syncing := false }
  match gradLoop updatePolicy s.actor gradsA with
  | (a, some e) => ({ s with actor := a }, ⟨none, none, some e, false⟩)
  | (a, none) =>
    let s := { s with actor := a }
    match gradLoop updateValue s.critic gradsC with
    | (c, some e) => ({ s with critic := c }, ⟨none, none, some e, false⟩)
    | (c, none) =>
      let s := { s with critic := c, syncing := org }
      match pushGrad zero pulledA s.actor with
      | .error e => (s, ⟨none, none, some e, false⟩)
      | .ok (ga, a) =>
        let s := { s with actor := a }
        match pushGrad zero pulledC s.critic with
        | .error e => (s, ⟨some ga, none, some e, false⟩)
        | .ok (gc, c) => ({ s with critic := c }, ⟨some ga, some gc, none, false⟩)

end Machin.Algo
