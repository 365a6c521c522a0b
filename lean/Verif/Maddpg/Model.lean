import Verif.Replay.Model
import Mathlib.Algebra.Field.Basic

/-!
# Model of `MADDPG` (`machin/frame/algorithms/maddpg.py`)

Networks are functions; a batch is a list of rows, every row has one entry per agent. Concatenated states and actions are the lists of the
entries of the visible agents. The pool is a map. Gradient steps are not modelled: the losses are.
-/

namespace Machin.Maddpg

open Replay

/-! ### Optimizers -/

/-- `actor_optims` (one list per actor) and `critic_optims`. -/
structure Optims (O : Type) where
  actors : List (List O)
  critics : List O
  deriving DecidableEq, Repr

/-- The getter (maddpg.py:307-309): `sum(actor_optims, critic_optims)`. -/
def getOptimizers {O : Type} (o : Optims O) : List O := o.actors.foldl (· ++ ·) o.critics

/-- The inner loops of the setter: the next `k` elements, and the rest; `IndexError` when there are too few. -/
def takeOptims {O : Type} : Nat → List O → Except Err (List O × List O)
  | 0, l => .ok ([], l)
  | _ + 1, [] => .error .index
  | k + 1, x :: l =>
    match takeOptims k l with
    | .error e => .error e
    | .ok (xs, rest) => .ok (x :: xs, rest)

/-- The loop over the actors. -/
def takeActors {O : Type} : List (List O) → List O → Except Err (List (List O) × List O)
  | [], l => .ok ([], l)
  | ac :: acs, l =>
    match takeOptims ac.length l with
    | .error e => .error e
    | .ok (xs, rest) =>
      match takeActors acs rest with
      | .error e => .error e
      | .ok (xss, rest) => .ok (xs :: xss, rest)

/-- The setter (maddpg.py:311-320): actors first, then critics. -/
def setOptimizers {O : Type} (o : Optims O) (l : List O) : Except Err (Optims O) :=
  match takeActors o.actors l with
  | .error e => .error e
  | .ok (actors, rest) =>
    match takeOptims o.critics.length rest with
    | .error e => .error e
    | .ok (critics, _) => .ok { actors := actors, critics := critics }

/-! ### Losses -/

/-- One row of a joint batch: for every agent `(state, action, reward, next_state, terminal)`. -/
structure Row (S A K : Type) where
  st : Nat → S
  ac : Nat → A
  rew : Nat → K
  nx : Nat → S
  term : Nat → Bool

/-- Everything `update` works with; `choice a` is the sub-policy picked for agent `a` by `choice(sub_actors)`. -/
structure Nets (S A K : Type) where
  actors : Nat → Nat → S → A
  actorTargets : Nat → Nat → S → A
  critics : Nat → List S → List A → K
  criticTargets : Nat → List S → List A → K
  visible : Nat → List Nat
  choice : Nat → Nat
  discount : K

/-- Keyword arguments of `act(self, states, use_target=False, **__)` (maddpg.py:328): names other than `use_target` are swallowed. -/
def actUseTarget (kwargs : List (String × Bool)) : Bool := (kwargs.lookup "use_target").getD false

/-- `act` / `_act_api_general` (maddpg.py:328-342, 456-472) for one agent. -/
def act {S A K : Type} (n : Nets S A K) (kwargs : List (String × Bool)) (states : Nat → S) (a : Nat) : A :=
  if actUseTarget kwargs then n.actorTargets a (n.choice a) (states a) else n.actors a (n.choice a) (states a)

/-- `next_actions_t` (maddpg.py:585-592): `self.act([batch[3] ...], target=True)`. -/
def nextActions {S A K : Type} (n : Nets S A K) (row : Row S A K) (a : Nat) : A := act n [("target", true)] row.nx a

/-- `all_next_actions_t` (maddpg.py:807-820). -/
def allNextActions {S A K : Type} (n : Nets S A K) (agent policy : Nat) (row : Row S A K) : List A :=
  (n.visible agent).map fun v => if v ≠ agent then nextActions n row v else n.actorTargets agent policy (row.nx v)

/-- `y_i` (maddpg.py:831-842, 994-997). -/
def tdTarget {S A K : Type} [Field K] (n : Nets S A K) (agent policy : Nat) (row : Row S A K) : K :=
  let next := n.criticTargets agent ((n.visible agent).map row.nx) (allNextActions n agent policy row)
  row.rew agent + n.discount * (if row.term agent then 0 else 1) * next

/-- The mean of a list. -/
def mean {K : Type} [Field K] (l : List K) : K := l.sum / (l.length : K)

/-- `value_loss` (maddpg.py:844-845); `crit` is the criterion for one row. -/
def valueLoss {S A K : Type} [Field K] (crit : K → K → K) (n : Nets S A K) (agent policy : Nat) (rows : List (Row S A K)) : K :=
  mean (rows.map fun row => crit (n.critics agent ((n.visible agent).map row.st) ((n.visible agent).map row.ac)) (tdTarget n agent policy row))

/-- The actions given to the critic for the policy loss (maddpg.py:857-873): the entry of the agent is the action of its actor for
`ensemble_batch[actor_index][3]`, the next state. -/
def policyActions {S A K : Type} (n : Nets S A K) (agent policy : Nat) (row : Row S A K) : List A :=
  ((n.visible agent).map row.ac).set ((n.visible agent).idxOf agent) (n.actors agent policy (row.nx agent))

/-- `act_policy_loss` (maddpg.py:857-879); `visible_actors.index(actor_index)` raises when the critic does not see its actor. -/
def policyLoss {S A K : Type} [Field K] (n : Nets S A K) (agent policy : Nat) (rows : List (Row S A K)) : Except Err K :=
  if agent ∈ n.visible agent then
    .ok (-mean (rows.map fun row => n.critics agent ((n.visible agent).map row.st) (policyActions n agent policy row)))
  else .error .value

/-- What `_update_sub_policy` returns (maddpg.py:916). -/
def subPolicyResult {S A K : Type} [Field K] (crit : K → K → K) (n : Nets S A K) (agent policy : Nat) (rows : List (Row S A K)) :
    Except Err (K × K) :=
  match policyLoss n agent policy rows with
  | .error e => .error e
  | .ok l => .ok (-l, valueLoss crit n agent policy rows)

/-- All results, or the first exception. -/
def collect {K : Type} : List (Except Err K) → Except Err (List K)
  | [] => .ok []
  | .error e :: _ => .error e
  | .ok x :: l =>
    match collect l with
    | .error e => .error e
    | .ok xs => .ok (x :: xs)

/-- What `update` returns (maddpg.py:598-638): `-mean_loss[0], mean_loss[1]`; `batches e` is the joint batch of sub-policy `e`. -/
def updateResult {S A K : Type} [Field K] (crit : K → K → K) (n : Nets S A K) (ensemble agents : Nat) (batches : Nat → List (Row S A K)) :
    Except Err (K × K) :=
  let jobs := (List.range ensemble).flatMap fun e => (List.range agents).map fun a => subPolicyResult crit n a e (batches e)
  match collect jobs with
  | .error e => .error e
  | .ok all => .ok (-mean (all.map (·.1)), mean (all.map (·.2)))

/-! ### Shared memory -/

/-- Python objects as far as `_move_to_shared_mem` distinguishes them. -/
inductive Obj
  | tensor (label : Nat)
  | other (label : Nat)
  | pyNone
  | list (l : List Obj)
  | tuple (l : List Obj)
  | dict (l : List (String × Obj))

mutual

/-- `_move_to_shared_mem` (maddpg.py:926-943): falls off the end for everything that is neither tensor, list, tuple nor dict. -/
def moveToShared : Obj → Obj
  | .tensor t => .tensor t
  | .list l => .list (moveAll l)
  | .tuple l => .tuple (moveAll l)
  | .dict l => .dict (moveDict l)
  | .other _ => .pyNone
  | .pyNone => .pyNone

def moveAll : List Obj → List Obj
  | [] => []
  | o :: l => moveToShared o :: moveAll l

def moveDict : List (String × Obj) → List (String × Obj)
  | [] => []
  | (k, o) :: l => (k, moveToShared o) :: moveDict l

end

/-! ### Replay buffers -/

/-- The loop of `store_episodes` (maddpg.py:514-518). -/
def storeLoop {ι τ : Type} (conv : ι → Except Err τ) : List (Buffer τ) → List (List ι) → List (Buffer τ) × Except Err Unit
  | b :: bs, e :: es =>
    match b.storeEpisode conv e with
    | (b, .error err) => (b :: bs, .error err)
    | (b, .ok ()) =>
      let (bs, r) := storeLoop conv bs es
      (b :: bs, r)
  | bs, _ => (bs, .ok ())

/-- `store_episodes` (maddpg.py:506-518). -/
def storeEpisodes {ι τ : Type} (conv : ι → Except Err τ) (bufs : List (Buffer τ)) (eps : List (List ι)) :
    List (Buffer τ) × Except Err Unit :=
  if eps.length ≠ bufs.length then (bufs, .error .assertion)
  else if (eps.map List.length).eraseDups.length ≠ 1 then (bufs, .error .assertion)
  else storeLoop conv bufs eps

/-- `_create_sample_method(indexes)` (maddpg.py:959-965). -/
def sampleAt {τ : Type} (b : Buffer τ) (indexes : List Nat) : List τ :=
  (indexes.filter (· < b.size)).filterMap fun i => b.storage.data[i]?

/-- Sampling from every buffer and the check `batch_size_ == batch_size` (maddpg.py:536-582). -/
def sampleAgents {τ : Type} (bufs : List (Buffer τ)) (indexes : List Nat) : Except Err (List (List τ)) :=
  if bufs.all (fun b => (sampleAt b indexes).length = indexes.length) then .ok (bufs.map fun b => sampleAt b indexes)
  else .error .assertion

end Machin.Maddpg
