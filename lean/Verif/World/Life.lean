import Verif.Base.Dict
import Verif.Group.Collective

/-!
# Model of the life of the world

`machin/parallel/distributed/_world.py`: `_world_singleton` (166-176), `get_cur_rank` and `get_cur_name` (184-201), `World.__init__` (275-313), `World.stop` (315-319) and the rank used by
`create_collective_group` (340-345), in one process. `torch.distributed` is modelled by what it documents: there is at most one default process group and one rpc agent, initializing either
of them twice raises an error, asking for the agent before there is one raises an error, and `rpc.shutdown` removes it. Everything else an initialization does is told by `Torch`: it may
fail, and it finds the rank and size of the process and the names of all processes. Addresses, backends, timeouts and the other attributes are left out.
-/

namespace Machin.World.Life

open Machin (PyDict)

/-- Arguments of `World` (_world.py:252-264). -/
structure Args where
  name : String
  rank : Int
  size : Int
  initDist : Bool
  initRpc : Bool
  deriving DecidableEq, Repr

/-- What torch answers during one construction: rank and size found by `init_process_group`, the worker infos (`id`, `name`) found by `init_rpc`; `none` if it raises. -/
structure Torch where
  dist : Option (Nat × Nat)
  rpc : Option (List (Nat × String))
  deriving DecidableEq, Repr

/-- A `World` object (_world.py:275-313). -/
structure W where
  name : String
  rank : Int
  size : Int
  started : Bool
  names : PyDict Nat String
  manager : String
  deriving DecidableEq, Repr

/-- The module variable `WORLD`, and the state of torch: the default process group and the rpc agent. -/
structure Proc where
  world : Option W
  group : Option (Nat × Nat)
  agent : Option (List (Nat × String))
  deriving DecidableEq, Repr

/-- A new process. -/
def start : Proc := ⟨none, none, none⟩

/-- What is raised: "World could only be initialized once!" (173), an error of torch, `KeyError` at `rank_name_map[0]` (313), "Cannot stop the world multiple times!" (317), no world. -/
inductive Fail
  | once
  | torch
  | key
  | multiple
  | noWorld
  deriving DecidableEq, Repr

/-- `dist.init_process_group` (_world.py:281-288). -/
def initDist (p : Proc) (t : Torch) : Option Proc :=
  match p.group, t.dist with
  | none, some g => some { p with group := some g }
  | _, _ => none

/-- `rpc.init_rpc` (_world.py:289-298). -/
def initRpc (p : Proc) (t : Torch) : Option Proc :=
  match p.agent, t.rpc with
  | none, some l => some { p with agent := some l }
  | _, _ => none

/-- The loop that fills `rank_name_map` (_world.py:301-303). -/
def rankNames (infos : List (Nat × String)) : PyDict Nat String := infos.foldl (fun d i => d.set i.1 i.2) []

/-- `World.__init__` (_world.py:275-313). -/
def initWorld (p : Proc) (a : Args) (t : Torch) : Proc × Except Fail W :=
  match (if a.initDist then initDist p t else some p) with
  | none => (p, .error .torch)
  | some p =>
    match (if a.initRpc then initRpc p t else some p) with
    | none => (p, .error .torch)
    | some p =>
      match p.agent with
      | none => (p, .error .torch)
      | some infos =>
        match (rankNames infos).get? 0 with
        | none => (p, .error .key)
        | some m => (p, .ok ⟨a.name, a.rank, a.size, true, rankNames infos, m⟩)

/-- `World(…)`: the wrapper of `_world_singleton` (_world.py:168-174). -/
def construct (p : Proc) (a : Args) (t : Torch) : Proc × Except Fail W :=
  match p.world with
  | some _ => (p, .error .once)
  | none =>
    match initWorld p a t with
    | (p, .ok w) => ({ p with world := some w }, .ok w)
    | (p, .error e) => (p, .error e)

/-- `get_world().stop()` (_world.py:315-319). -/
def stop (p : Proc) : Proc × Except Fail Unit :=
  match p.world with
  | none => (p, .error .noWorld)
  | some w =>
    if !w.started then (p, .error .multiple)
    else match p.agent with
      | none => (p, .error .torch)
      | some _ => ({ p with agent := none }, .ok ())

/-- `get_cur_rank` (_world.py:184-191). -/
def curRank (p : Proc) : Except Fail Int :=
  match p.world with
  | none => .error .noWorld
  | some w => .ok w.rank

/-- `get_cur_name` (_world.py:194-201). -/
def curName (p : Proc) : Except Fail String :=
  match p.world with
  | none => .error .noWorld
  | some w => .ok w.name

/-- The relative rank in `create_collective_group` (_world.py:340-344). -/
def relativeRank (w : W) (ranks : List Nat) : Option Nat :=
  let ranks := Group.sortRanks ranks
  match w.rank with
  | .ofNat r => if r ∈ ranks then Group.indexOf? r ranks else none
  | .negSucc _ => none

/-- What the process does. -/
inductive Op
  | construct (a : Args) (t : Torch)
  | stop
  deriving DecidableEq, Repr

/-- How an operation ends. -/
inductive Out
  | made (w : W)
  | stopped
  | raised (e : Fail)
  deriving DecidableEq, Repr

/-- One operation. -/
def step (p : Proc) : Op → Proc × Out
  | .construct a t => match construct p a t with
    | (p, .ok w) => (p, .made w)
    | (p, .error e) => (p, .raised e)
  | .stop => match stop p with
    | (p, .ok ()) => (p, .stopped)
    | (p, .error e) => (p, .raised e)

/-- A history: the state and how the operations ended. -/
def run : Proc → List Op → Proc × List Out
  | p, [] => (p, [])
  | p, op :: ops => ((run (step p op).1 ops).1, (step p op).2 :: (run (step p op).1 ops).2)

end Machin.World.Life
