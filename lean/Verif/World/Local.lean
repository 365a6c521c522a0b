import Verif.World.Model

/-!
# Model of the world object of a process, of copies of group objects, and of calls

`machin/parallel/distributed/_world.py`: `_world_singleton` (166-176), `get_cur_rank`, `get_cur_name` (184-201), `World.__init__` (252-313),
`stop` (315-319), `get_ranks`, `get_members` (399-411), the pickling of `RpcGroup` (977-979) and the methods of a group object that was
pickled, `_rpc_normal_call` (941-948), `_rpc_call_func` (92-97) and the roles of `DQNApex`, `DDPGApex` and `IMPALA` that are taken from the
rank (`frame/algorithms/apex.py:217, 248`, `impala.py:474, 504`).

Names are numbers, in the order of the strings. What torch does is a parameter: `dist` and `rpc` give the rank under which a process joins
the process group and the RPC agents if it was given some rank (-1 if it was not given), `peers` are the worker infos of the agent once all
processes have joined.
-/

namespace Machin.World

/-- The arguments of `World` that matter (252-264). -/
structure Args where
  name : Nat
  rank : Int := -1
  initDist : Bool := true
  initRpc : Bool := true
  deriving DecidableEq, Repr

/-- The surroundings. -/
structure Host where
  dist : Int → Except Err Nat
  rpc : Int → Except Err Nat
  peers : List (Nat × Nat)

/-- The world object (274-278, 300-313). -/
structure Obj where
  name : Nat
  rank : Int
  map : List (Nat × Nat)
  manager : Nat
  started : Bool
  deriving DecidableEq, Repr

/-- What is global in a process: `WORLD`, the default process group of torch and the RPC agent of torch, each with the rank it has joined
with. -/
structure Global where
  world : Option Obj
  dist : Option Nat
  rpc : Option Nat
  deriving DecidableEq, Repr

/-- `init_process_group` (281-288) and `init_rpc` (289-298): refused if it is there already. -/
def join (rendezvous : Int → Except Err Nat) (rank : Int) : Option Nat → Except Err Nat
  | some _ => .error .runtime
  | none => rendezvous rank

/-- `World(…)`: the wrapper (168-174) and the constructor (274-313). -/
def newWorld (host : Host) (a : Args) (g : Global) : Global × Except Err Unit :=
  match g.world with
  | some _ => (g, .error .runtime)
  | none =>
    match (if a.initDist then (join host.dist a.rank g.dist).map some else .ok g.dist) with
    | .error e => (g, .error e)
    | .ok dist =>
      match (if a.initRpc then (join host.rpc a.rank g.rpc).map some else .ok g.rpc) with
      | .error e => ({ g with dist := dist }, .error e)
      | .ok rpc =>
        match rpc with
        | none => ({ g with dist := dist }, .error .runtime)      -- `_get_current_rpc_agent` (302)
        | some _ =>
          match host.peers.lookup 0 with
          | none => ({ g with dist := dist, rpc := rpc }, .error .key)
          | some manager => (⟨some ⟨a.name, a.rank, host.peers, manager, true⟩, dist, rpc⟩, .ok ())

/-- `get_cur_rank` (184-191). -/
def curRank (g : Global) : Except Err Int :=
  match g.world with
  | none => .error .runtime
  | some w => .ok w.rank

/-- `stop` (315-319); `rpc.shutdown` needs an agent and takes it away. -/
def stop (g : Global) : Global × Except Err Unit :=
  match g.world with
  | none => (g, .error .attribute)
  | some w =>
    if !w.started then (g, .error .runtime)
    else
      match g.rpc with
      | none => (g, .error .runtime)
      | some _ => ({ g with rpc := none }, .ok ())

/-- Insertion for `sorted`. -/
def insertNat (x : Nat) : List Nat → List Nat
  | [] => [x]
  | y :: ys => if x ≤ y then x :: y :: ys else y :: insertNat x ys

/-- `sorted`. -/
def sortNat : List Nat → List Nat
  | [] => []
  | x :: xs => insertNat x (sortNat xs)

/-- `get_ranks` (399-404). -/
def getRanks (w : Obj) : List Nat := sortNat (w.map.map (·.1))

/-- `get_members` (406-411). -/
def getMembers (w : Obj) : List Nat := sortNat (w.map.map (·.2))

/-- `world.rank >= max_learner_id` makes a sampler, else a learner (apex.py:248-252, 527-531, impala.py:504-508). -/
def isLearner (w : Obj) (maxLearner : Nat) : Bool := !decide (w.rank ≥ (maxLearner : Int))

/-! ### Group objects that were sent to another process -/

variable {P K V : Type} [DecidableEq P] [DecidableEq K]

/-- A group object that is not the one in `WORLD.groups`: its members and its local tables. -/
structure Copy (P K V : Type) where
  members : List P
  loc : Kind → K → Option V

/-- `__reduce__` (977-979) and the constructor with `first_create=False` (598-612): no tables are sent, nothing is registered. -/
def copied (members : List P) : Copy P K V := ⟨members, fun _ _ => none⟩

/-- `pair` (645-662) or `register` (750-767) of a copy in process `p`, behind `_check_executor` (220-229). -/
def Copy.acquire (s : State P K V) (c : Copy P K V) (p : P) (kind : Kind) (k : K) (v : V) :
    State P K V × Copy P K V × Except Err Unit :=
  if p ∈ c.members then
    match c.loc kind k with
    | some _ => (s, c, .error .key)
    | none =>
      match setEntry s.lut kind k p with
      | (lut, true) => ({ s with lut := lut }, { c with loc := upd2 c.loc kind k (some v) }, .ok ())
      | (_, false) => (s, c, .error .key)
  else (s, c, .error .runtime)

/-- `unpair` (676-694) or `deregister` (782-802) of a copy in process `p`. -/
def Copy.release (s : State P K V) (c : Copy P K V) (p : P) (kind : Kind) (k : K) : State P K V × Copy P K V × Except Err Unit :=
  if p ∈ c.members then
    match c.loc kind k with
    | none => (s, c, .error .key)
    | some _ =>
      match unsetEntry s.lut kind k p with
      | (lut, true) => ({ s with lut := lut }, { c with loc := upd2 c.loc kind k none }, .ok ())
      | (_, false) => (s, c, .error .runtime)
  else (s, c, .error .runtime)

/-- `get_paired` (722-734) or a service call (950-965) on a copy in process `q`; the request is served from the group object that the
holder has in `WORLD.groups`. -/
def Copy.lookup (s : State P K V) (c : Copy P K V) (q : P) (kind : Kind) (k : K) : State P K V × Except Err V :=
  match c.loc kind k with
  | some _ => serve s q kind k
  | none =>
    match s.lut kind k with
    | none => (s, .error .key)
    | some h => serve s h kind k

/-! ### Calls of functions -/

/-- What a caller gets: the result, an `RpcException` with the traceback of an exception of the function, or an exception of the group. -/
inductive Answer (R E : Type)
  | value (r : R)
  | rpcException (e : E)
  | raised (e : Err)
  deriving DecidableEq, Repr

/-- `_rpc_call_func` (92-97) in the target process: `f` is the call of the function there. -/
def callFunc {W R E : Type} (f : W → W × Except E R) (w : W) : W × Answer R E :=
  match f w with
  | (w', .ok r) => (w', .value r)
  | (w', .error e) => (w', .rpcException e)

/-- `_rpc_normal_call` (941-948) with `rpc_sync`, from any process: `ws` are the states of all processes. -/
def normalCall {W R E : Type} (members : List P) (ws : P → W) (to : P) (f : W → W × Except E R) : (P → W) × Answer R E :=
  if to ∈ members then
    let r := callFunc f (ws to)
    (upd ws to r.1, r.2)
  else (ws, .raised .runtime)

/-- `_rpc_call_service` (100-131) at the holder `h` of a service: the exceptions of the service are wrapped, those of the look-up are not.
`f v` is the call of the service `v`. -/
def callService {R E : Type} (s : State P K V) (h : P) (k : K) (f : V → Except E R) : State P K V × Answer R E :=
  match serve s h .service k with
  | (s', .error e) => (s', .raised e)
  | (s', .ok v) =>
    match f v with
    | .ok r => (s', .value r)
    | .error e => (s', .rpcException e)

end Machin.World
