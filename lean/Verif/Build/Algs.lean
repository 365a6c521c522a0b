import Verif.Base.Dict
import Verif.Base.Err

/-! # What `store_episode` of the algorithms does to the items before it hands them to the buffer

`machin/frame/algorithms/{a2c,rainbow,impala,gail,dqn,ddpg,sac}.py`, `store_episode`. Items are dictionaries or transition objects
(`List[Union[Transition, Dict]]`). Only which keys are read and assigned in which order is modelled; the values assigned are those of C46 to
C48, C50 and C106 and are given by a function. Objects are assumed to be valid (C22), so that an assignment of a known attribute passes
`_check_validity`. Items are distinct. An attribute that is assigned twice (RAINBOW, last step) gets its final value both times. -/

namespace Machin.Build.Algs

variable {ν : Type}

/-- A dictionary or a transition object with its attributes. -/
structure Item (ν : Type) where
  isObj : Bool
  attrs : PyDict String ν
  deriving DecidableEq, Repr

/-- `item[k]`: `KeyError` of a dictionary, `AttributeError` of `getattr` (transition.py:67-68). -/
def Item.get (x : Item ν) (k : String) : Except Err ν :=
  match x.attrs.get? k with
  | some v => .ok v
  | none => .error (if x.isObj then .attribute else .key)

/-- `item[k] = v`: an object refuses new attributes (transition.py:70-76). -/
def Item.set (x : Item ν) (k : String) (v : ν) : Except Err (Item ν) :=
  if x.isObj ∧ k ∉ x.attrs.keys then .error .runtime else .ok { x with attrs := x.attrs.set k v }

/-- An access to item `i`. -/
inductive Op
  | read (i : Nat) (k : String)
  | write (i : Nat) (k : String)
  deriving DecidableEq, Repr

/-- The accesses in order, until one raises. `val i k` is what is assigned. -/
def run (val : Nat → String → ν) : List Op → List (Item ν) → List (Item ν) × Except Err Unit
  | [], items => (items, .ok ())
  | .read i k :: ops, items =>
    match items[i]? with
    | none => (items, .error .index)
    | some x =>
      match x.get k with
      | .error e => (items, .error e)
      | .ok _ => run val ops items
  | .write i k :: ops, items =>
    match items[i]? with
    | none => (items, .error .index)
    | some x =>
      match x.set k (val i k) with
      | .error e => (items, .error e)
      | .ok x => run val ops (items.set i x)

/-- `gae_lambda` (a2c.py:284-315). -/
inductive Lam
  | one
  | zero
  | other
  deriving DecidableEq, Repr

/-- The algorithms: `plain` are DQN, DDPG, SAC and those that inherit `store_episode` from them (dqn.py:324-331, ddpg.py:369-376,
sac.py:270-277), `a2c` also stands for A3C, PPO and TRPO. -/
inductive Alg
  | plain
  | a2c (lam : Lam)
  | rainbow (steps : Nat)
  | impala
  | gail (lam : Lam)
  deriving DecidableEq, Repr

/-- The advantages (a2c.py:284-315). -/
def gaeOps (n : Nat) : Lam → List Op
  | .one => (List.range n).flatMap fun i => [.read i "value", .read i "state", .write i "gae"]
  | .zero => (List.range n).flatMap fun i => [.read i "reward", .read i "terminal", .read i "next_state", .read i "state", .write i "gae"]
  | .other => (List.range n).reverse.flatMap fun i => [.read i "state", .read i "reward", .read i "terminal", .write i "gae"]

/-- `A2C.store_episode` (a2c.py:275-315). -/
def a2cOps (lam : Lam) (n : Nat) : List Op :=
  [.read (n - 1) "reward", .write (n - 1) "value"] ++
    (List.range (n - 1)).reverse.flatMap (fun j => [.read (j + 1) "value", .read j "reward", .write j "value"]) ++ gaeOps n lam

/-- `RAINBOW.store_episode` (rainbow.py:179-189). -/
def rainbowOps (steps n : Nat) : List Op :=
  [.read (n - 1) "reward", .write (n - 1) "value"] ++
    (List.range n).reverse.flatMap fun i => ((List.range (min steps (n - i))).reverse.map fun j => Op.read (i + j) "reward") ++ [.write i "value"]

/-- `IMPALA.store_episode` (impala.py:225-227). -/
def impalaOps (n : Nat) : List Op := (List.range n).map fun i => .write i "episode_length"

/-- `GAIL.store_episode` (gail.py:229-230), before the framework inside stores: `**trans` hands over the entries, `_discriminate` takes state
and action. -/
def gailOps (n : Nat) : List Op := (List.range n).flatMap fun i => [.read i "state", .read i "action", .write i "reward"]

/-- The accesses to an episode of `n` items. -/
def Alg.ops (n : Nat) : Alg → List Op
  | .plain => []
  | .a2c lam => a2cOps lam n
  | .rainbow steps => rainbowOps steps n
  | .impala => impalaOps n
  | .gail lam => gailOps n ++ a2cOps lam n

/-- The exception for an empty episode: `episode[-1]` raises `IndexError`, the check of IMPALA (impala.py:221-222) and of the buffer
(buffer.py:69-70) `ValueError`. -/
def Alg.emptyErr : Alg → Err
  | .plain => .value
  | .impala => .value
  | _ => .index

/-- `store_episode` up to the call of the buffer: the items of the caller afterwards, and whether it is reached. -/
def prepare (alg : Alg) (val : Nat → String → ν) (items : List (Item ν)) : List (Item ν) × Except Err Unit :=
  if items.length = 0 then (items, .error alg.emptyErr) else run val (alg.ops items.length) items

/-- What `Buffer.store_episode` leaves in the list of the caller: every item is a transition object with the same attributes (buffer.py:75-91,
C238). -/
def handedOver (items : List (Item ν)) : List (Item ν) := items.map fun x => { x with isObj := true }

end Machin.Build.Algs
