import Verif.Base.Dict

/-!
# Model of the ordered server and of the model server

`machin/parallel/server/ordered_server.py` and the `PushPullModelServer` of `machin/parallel/server/param_server.py`.
The services run under the lock of the server, so every interleaving of requests is a sequence of atomic requests.
`deepcopy` is the identity on (immutable) model values.
-/

namespace Machin.Server

variable {κ V ν : Type} [DecidableEq κ] [DecidableEq V]

/-- `OrderedServerSimpleImpl` (ordered_server.py:84-110): the storage maps keys to ordered dictionaries of versions. -/
structure Ordered (κ V ν : Type) where
  storage : PyDict κ (PyDict V ν)
  depth : Nat

/-- `__init__` (ordered_server.py:84-110): a depth of 0 is rejected. -/
def Ordered.new (depth : Nat) : Option (Ordered κ V ν) := if depth > 0 then some ⟨[], depth⟩ else none

/-- `next(reversed(ref))`: the key inserted last. -/
def newest? (ref : PyDict V ν) : Option V := ref.getLast?.map (·.1)

/-- `_push_service` (ordered_server.py:112-128). Assigning an existing version keeps its position. -/
def Ordered.push (s : Ordered κ V ν) (key : κ) (value : ν) (version prev : V) : Ordered κ V ν × Bool :=
  match s.storage.get? key with
  | some ref =>
    let ok := newest? ref = some prev
    let ref := if ok then ref.set version value else ref
    let ref := if ref.length > s.depth + 1 then ref.tail else ref
    ({ s with storage := s.storage.set key ref }, ok)
  | none => ({ s with storage := s.storage.set key [(version, value)] }, true)

/-- `_pull_service` (ordered_server.py:130-142). -/
def Ordered.pull (s : Ordered κ V ν) (key : κ) (version : Option V) : Option (ν × V) :=
  match s.storage.get? key with
  | none => none
  | some ref =>
    match version with
    | some v => (ref.get? v).map fun x => (x, v)
    | none => (newest? ref).bind fun v => (ref.get? v).map fun x => (x, v)

/-! ### Requests and histories -/

/-- A request. -/
inductive Req (κ V ν : Type)
  | push (key : κ) (value : ν) (version prev : V)
  | pull (key : κ) (version : Option V)

/-- A response. -/
inductive Resp (V ν : Type)
  | pushed (ok : Bool)
  | pulled (r : Option (ν × V))

/-- Serve one request. -/
def Ordered.serve (s : Ordered κ V ν) : Req κ V ν → Ordered κ V ν × Resp V ν
  | .push k x v p => ((s.push k x v p).1, .pushed (s.push k x v p).2)
  | .pull k v => (s, .pulled (s.pull k v))

/-- Not a function of the code: serve a sequence of requests, recording the trace of requests and responses. -/
def Ordered.run (s : Ordered κ V ν) : List (Req κ V ν) → Ordered κ V ν × List (Req κ V ν × Resp V ν)
  | [] => (s, [])
  | q :: qs => (((s.serve q).1.run qs).1, (q, (s.serve q).2) :: ((s.serve q).1.run qs).2)

/-! ### The model server -/

/-- A client of the model server: the attribute `pp_version` of its model (`none` if missing) and the parameters;
`pulling` while a rejected push has yet to pull the newest parameters. -/
structure Client (ν : Type) where
  version : Option Nat
  params : ν
  pulling : Bool

/-- The model server (an ordered server with depth 1 under one key) with its clients. -/
structure Net (ν : Type) where
  server : Ordered Unit Nat ν
  client : Nat → Client ν

/-- Replace a client. -/
def Net.setClient {ν : Type} (n : Net ν) (i : Nat) (c : Client ν) : Net ν :=
  { n with client := fun j => if j = i then c else n.client j }

/-- Steps of the clients. -/
inductive Act (ν : Type)
  /-- the parameters are changed locally (an optimizer step) -/
  | train (i : Nat) (p : ν)
  /-- the push request of `push` -/
  | push (i : Nat) (pullOnFail : Bool)
  /-- the pull request of a rejected `push` -/
  | finish (i : Nat)
  /-- `pull` -/
  | pull (i : Nat)

/-- One step of one client: `push` (param_server.py:36-71) in two requests, `pull` (param_server.py:73-91). Steps that a
client cannot take in its present state change nothing. The second component is the result of a push request. -/
def Net.step {ν : Type} (n : Net ν) : Act ν → Net ν × Option Bool
  | .train i p => if (n.client i).pulling then (n, none) else (n.setClient i { n.client i with params := p }, none)
  | .push i pullOnFail =>
    let c := n.client i
    if c.pulling then (n, none)
    else
      let v := c.version.getD 0
      let r := n.server.push () c.params (v + 1) v
      if r.2 then ({ n with server := r.1 }.setClient i { c with version := some (v + 1) }, some true)
      else ({ n with server := r.1 }.setClient i { c with version := some v, pulling := pullOnFail }, some false)
  | .finish i =>
    let c := n.client i
    if c.pulling then
      match n.server.pull () none with
      | some (p, v) => (n.setClient i ⟨some v, p, false⟩, none)
      -- `RuntimeError`, "this should not happen"
      | none => (n.setClient i { c with pulling := false }, none)
    else (n, none)
  | .pull i =>
    let c := n.client i
    if c.pulling then (n, none)
    else
      match n.server.pull () none with
      | none => (n, none)
      | some (p, v) =>
        if c.version = none ∨ c.version.getD 0 < v then (n.setClient i { c with version := some v, params := p }, none)
        else (n, none)

/-- Not a function of the code: the accepted push of a step, if any (client, version before the push, parameters). -/
def Net.event {ν : Type} (n : Net ν) : Act ν → List (Nat × Option Nat × ν)
  | .push i b => if (n.step (.push i b)).2 = some true then [(i, (n.client i).version, (n.client i).params)] else []
  | _ => []

/-- Not a function of the code: the state after a sequence of steps, and the accepted pushes in order. -/
def Net.run {ν : Type} (n : Net ν) : List (Act ν) → Net ν × List (Nat × Option Nat × ν)
  | [] => (n, [])
  | a :: as => (((n.step a).1.run as).1, n.event a ++ ((n.step a).1.run as).2)

/-- Not a function of the code: for every client, the parameters it held when its version last changed. -/
def Net.base {ν : Type} (n : Net ν) (b : Nat → ν) : List (Act ν) → Nat → ν
  | [] => b
  | a :: as => (n.step a).1.base
    (fun i => if ((n.step a).1.client i).version = (n.client i).version then b i else ((n.step a).1.client i).params) as

/-- The initial state: an empty server, clients with models without a version. -/
def Net.init {ν : Type} (p : Nat → ν) : Net ν := ⟨⟨[], 1⟩, fun i => ⟨none, p i, false⟩⟩

end Machin.Server
