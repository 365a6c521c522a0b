import Verif.Pool.Spec

/-!
# Model of the pool classes: how calls are wrapped, how workers are replaced, how exceptions travel

`machin/parallel/pool.py` (`Pool`, `P2PPool`, `CtxPool`, `ThreadPool`, `CtxThreadPool`), `machin/parallel/exception.py`,
`machin/parallel/queue.py` (`MultiP2PQueue`).
-/

namespace Machin.Pool

/-- The pool classes of `pool.py`. -/
inductive Cls
  | base | pool | p2p | ctx | thread | ctxThread
  deriving DecidableEq, Repr

/-- `apply_async` of a class: which callbacks reach the handle. `BasePool.apply_async` (pool.py:367-393) passes both;
`Pool.apply_async` (pool.py:986-1003) calls `super().apply_async` without them; `P2PPool`, `CtxPool` and `ThreadPool`
inherit it; `CtxThreadPool.apply_async` (pool.py:1354-1359) passes them to `Pool.apply_async`. -/
def Cls.applyAsync (c : Cls) (cb ecb : Bool) : Submit :=
  match c with
  | .base => .apply cb ecb
  | .pool | .p2p | .ctx | .thread => .apply false false
  | .ctxThread => .apply false false

/-- `map_async` of a class (pool.py:415-446, 1018-1035, 1364-1369): all pass both callbacks. -/
def Cls.mapAsync (_ : Cls) (workers n : Nat) (chunksize : Option Nat) (cb ecb : Bool) : Submit :=
  .map n (mapChunksize workers n chunksize) cb ecb

/-! ### Wrapped calls -/

/-- The callables that take part in a call. -/
inductive Fn
  /-- the function of the user -/
  | user
  /-- `proxy_caller` -/
  | proxy
  /-- `proxy_ctx_caller` -/
  | proxyCtx
  /-- the closure made by `CtxThreadPool._wrap_func` (pool.py:1421-1427) around the function of the user -/
  | wrapped
  deriving DecidableEq, Repr

/-- Python values that take part in a call: opaque arguments, the context of the worker, serialized functions, tuples, and
the (here always empty) dictionary of keyword arguments. -/
inductive Val
  | atom (n : Nat)
  | ctx
  | dump (f : Fn)
  | tuple (l : List Val)
  | kwds

/-- `a, b, c = value` for a tuple value. -/
def unpack3 : List Val → Except Err (Val × Val × Val)
  | [a, b, c] => .ok (a, b, c)
  | _ => .error .value

/-- A call `f(*args)` in a worker; the result is the list of arguments with which the function of the user is finally
called. `proxy_caller` (pool.py:30-39), `proxy_ctx_caller` (pool.py:42-51), `_wrap_func` (pool.py:1421-1427). `fuel` bounds
the nesting of wrappers. -/
def call : Nat → Fn → List Val → Except Err (List Val)
  | _, .user, args => .ok args
  | _, .wrapped, args => .ok (.ctx :: args)
  | 0, _, _ => .error (.other 0)
  | fuel + 1, f, input =>
    let unpacked : Except Err (Val × Val × Val) :=
      match input with
      | [.tuple l] => unpack3 l
      | [_] => .error .type
      | l => unpack3 l
    match unpacked with
    | .error e => .error e
    | .ok (.dump g, .tuple args, .kwds) =>
      match f with
      | .proxyCtx => call fuel g (.ctx :: args)
      | _ => call fuel g args
    | .ok _ => .error .type

/-- `self._caller` (pool.py:957, 1191). -/
def Cls.caller : Cls → Fn
  | .ctx => .proxyCtx
  | _ => .proxy

/-- The task `(func, args)` submitted by `apply_async(func, args)` (pool.py:390-392, 986-1003, 1354-1359). -/
def Cls.asyncTask (c : Cls) (f : Fn) (args : List Val) : Fn × List Val :=
  match c with
  | .base => (f, args)
  | .ctxThread => (c.caller, [.dump .wrapped, .tuple args, .kwds])
  | _ => (c.caller, [.dump f, .tuple args, .kwds])

/-- The task submitted by `apply(func, args)`. `BasePool.apply` (pool.py:353-365) calls `self.apply_async`;
`Pool.apply` (pool.py:967-984) passes its caller and the serialized call to `BasePool.apply`, which calls the overriding
`apply_async`; `CtxThreadPool.apply` (pool.py:1349-1352) uses `Pool.apply_async` directly. -/
def Cls.applyTask (c : Cls) (f : Fn) (args : List Val) : Fn × List Val :=
  match c with
  | .base => c.asyncTask f args
  | .ctxThread => c.asyncTask f args
  | _ => c.asyncTask c.caller [.tuple [.dump f, .tuple args, .kwds]]

/-- One element of a `map` over `args` (`proxy_dumper`, pool.py:54-63, called by `map_caller` with one argument). -/
def Cls.mapTask (c : Cls) (f : Fn) (args : List Val) : Fn × List Val :=
  match c with
  | .base => (f, args)
  | .ctxThread => (c.caller, [.tuple [.dump .wrapped, .tuple args, .kwds]])
  | _ => (c.caller, [.tuple [.dump f, .tuple args, .kwds]])

/-- Running a task in a worker (pool.py:756-763). -/
def runTask (t : Fn × List Val) : Except Err (List Val) := call 3 t.1 t.2

/-! ### Exceptions -/

/-- What is stored in a failed handle: an exception, or the wrapper `ExceptionWithTraceback` (not an exception class,
exception.py:23-43). -/
inductive Failure (ε : Type)
  | exc (e : ε)
  | wrapper (e : ε)
  deriving DecidableEq, Repr

/-- Failure of a task on its way from the worker (pool.py:761-763) to the handle: queues of process pools pickle, which
turns the wrapper into the exception (exception.py:41-43); the queues of thread pools (pool.py:1250-1260) do not. -/
def Cls.transport {ε : Type} (c : Cls) (e : ε) : Failure ε :=
  match c with
  | .thread | .ctxThread => .wrapper e
  | _ => .exc e

/-- `raise self._value` (pool.py:135): raising something that is not an exception is a `TypeError`. -/
def raiseValue (f : Failure Err) : Err :=
  match f with
  | .exc e => e
  | .wrapper _ => .type

/-! ### Replacement of workers -/

/-- A worker: its context number (`worker.id`) or the index of its sub-queue, and whether it has exited. -/
structure Worker where
  id : Nat
  exited : Bool
  deriving DecidableEq, Repr

/-- `BasePool.maintain_pool` (pool.py:645-664) before repopulating: exited workers are removed. -/
def reap (ws : List Worker) : List Worker := ws.filter (fun w => !w.exited)

/-- `CtxPool.repopulate_pool` (pool.py:1193-1226), `ThreadPool.repopulate_pool` (pool.py:1295-1321) and
`CtxThreadPool.repopulate_pool` (pool.py:1387-1419). The iteration order of the set `need_ids` is the parameter `order`. -/
def repopulateIds (order : List Nat → List Nat) (n : Nat) (ws : List Worker) : List Worker :=
  let needIds := order ((List.range n).filter (fun i => i ∉ ws.map (·.id)))
  ws ++ ((List.range (n - ws.length)).zip needIds).map (fun p => ⟨p.2, false⟩)

/-- `P2PPool.repopulate_pool` (pool.py:1102-1125). -/
def repopulateP2P (n : Nat) (ws : List Worker) : List Worker :=
  ws ++ (List.range (n - ws.length)).map (fun i => ⟨i, false⟩)

/-- What happens to the workers: worker number `k` of the list exits, or `maintain_pool` runs. -/
inductive WEv
  | exit (k : Nat)
  | maintain
  deriving DecidableEq, Repr

/-- The worker number `k` exits. -/
def exitWorker (ws : List Worker) (k : Nat) : List Worker := ws.modify k (fun w => { w with exited := true })

/-- One event, for a given way to repopulate. -/
def wStep (repop : List Worker → List Worker) (ws : List Worker) : WEv → List Worker
  | .exit k => exitWorker ws k
  | .maintain => repop (reap ws)

/-- The history of a pool, which starts with one call of `repopulate_pool` (pool.py:330). -/
def wRun (repop : List Worker → List Worker) (evs : List WEv) : List Worker := evs.foldl (wStep repop) (repop [])

/-! ### `MultiP2PQueue` -/

/-- `quick_put` (queue.py:257-261) for a sequence of objects: the sub-queue chosen for each, and the new counter. -/
def quickPut (n : Nat) : Nat → Nat → List Nat × Nat
  | counter, 0 => ([], counter)
  | counter, k + 1 => (counter :: (quickPut n ((counter + 1) % n) k).1, (quickPut n ((counter + 1) % n) k).2)

end Machin.Pool
