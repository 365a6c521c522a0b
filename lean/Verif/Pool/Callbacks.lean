import Verif.Pool.Model

/-!
# Model of callbacks that raise

`machin/parallel/pool.py`: `AsyncResult.set` (137-147), `MapResult.set` (168-193), `_submit_task` (774-785) and `_handle_results`
(804-825), with callbacks of the user that may raise. In `Verif.Pool.Model` they return always. A callback is called before the event is set
and before the job is removed from the cache.
-/

namespace Machin.Pool

variable {β ε : Type}

/-- How a call of a callback ends: `none` if it returns. -/
abbrev Outcome (β ε : Type) := Call β ε → Option Err

/-- `AsyncResult.set` (pool.py:137-147): the handle afterwards and the exception, if a callback raised. -/
def AsyncRes.setC (cb : Outcome β ε) (r : AsyncRes β ε) (_chunk : Nat) (obj : Obj β ε) : AsyncRes β ε × Option Err :=
  let call : Option (Call β ε) := match obj with
    | .ok l => if r.hasCallback then some (.callback (l.map some)) else none
    | .error e => if r.hasErrorCallback then some (.errorCallback e) else none
  match call with
  | none => ({ r with value := some obj, ready := true }, none)
  | some c =>
    match cb c with
    | some e => ({ r with value := some obj, calls := r.calls ++ [c] }, some e)
    | none => ({ r with value := some obj, ready := true, calls := r.calls ++ [c] }, none)

/-- `MapResult.set` (pool.py:168-193): the handle afterwards and the exception, if a callback raised. -/
def MapRes.setC (cb : Outcome β ε) (r : MapRes β ε) (chunk : Nat) (obj : Obj β ε) : MapRes β ε × Option Err :=
  let left := r.left - 1
  let value : Except ε (List (Option β)) := match obj, r.value with
    | .ok result, .ok value => .ok (setSlice value (chunk * r.chunksize) ((chunk + 1) * r.chunksize) (result.map some))
    | .error e, .ok _ => .error e
    | _, v => v
  if left = 0 then
    let call : Option (Call β ε) := match value with
      | .ok v => if r.hasCallback then some (.callback v) else none
      | .error e => if r.hasErrorCallback then some (.errorCallback e) else none
    match call with
    | none => ({ r with left := left, value := value, ready := true }, none)
    | some c =>
      match cb c with
      | some e => ({ r with left := left, value := value, calls := r.calls ++ [c] }, some e)
      | none => ({ r with left := left, value := value, ready := true, calls := r.calls ++ [c] }, none)
  else ({ r with left := left, value := value }, none)

/-- `set` of a handle: the handle, whether its job leaves the cache, and the exception. Iterators have no callbacks. -/
def Handle.setC (cb : Outcome β ε) (h : Handle β ε) (chunk : Nat) (obj : Obj β ε) : Handle β ε × Bool × Option Err :=
  match h with
  | .async r =>
    match r.setC cb chunk obj with
    | (r, some e) => (.async r, false, some e)
    | (r, none) => (.async r, true, none)
  | .map r =>
    match r.setC cb chunk obj with
    | (r, some e) => (.map r, false, some e)
    | (r, none) => (.map r, decide (r.left = 0), none)
  | h => ((h.set chunk obj).1, (h.set chunk obj).2, none)

/-- `self._cache[job].set(idx, obj)` (pool.py:784, 821): the pool and the exception; a job that is not in the cache is a `KeyError`. -/
def Pool.deliverC (cb : Nat → Outcome β ε) (p : Pool β ε) (job chunk : Nat) (obj : Obj β ε) : Pool β ε × Option Err :=
  match p.cache.get? job with
  | none => (p, some .key)
  | some h =>
    match h.setC (cb job) chunk obj with
    | (h, true, e) => ({ p with cache := p.cache.erase job, done := p.done.set job h }, e)
    | (h, false, e) => ({ p with cache := p.cache.set job h }, e)

/-- A pool and whether the thread of `_handle_results` lives. -/
structure Served (β ε : Type) where
  pool : Pool β ε
  alive : Bool

/-- What happens. -/
inductive CEvent (β ε : Type)
  | submit (s : Submit)
  /-- a result arrives in the queue of results -/
  | deliver (job chunk : Nat) (obj : Obj β ε)
  /-- a task could not be put into the queue -/
  | refuse (job chunk : Nat) (e : ε)

/-- One event: the submission of a job, the body of the loop of `_handle_results` (pool.py:810-823), where only `KeyError` is caught and any other
exception ends the thread, or the error path of `_submit_task` (pool.py:778-786), which runs in the thread of the caller. -/
def Served.step (cb : Nat → Outcome β ε) (s : Served β ε) : CEvent β ε → Served β ε
  | .submit sub => { s with pool := s.pool.submit sub }
  | .deliver j c o =>
    if s.alive then
      match s.pool.deliverC cb j c o with
      | (p, none) => ⟨p, true⟩
      | (p, some .key) => ⟨p, true⟩
      | (p, some _) => ⟨p, false⟩
    else s
  | .refuse j c e => { s with pool := (s.pool.deliverC cb j c (.error e)).1 }

/-- Not a function of the code: a sequence of events, from the new pool. -/
def Served.run (cb : Nat → Outcome β ε) (evs : List (CEvent β ε)) : Served β ε := evs.foldl (Served.step cb) ⟨⟨0, [], []⟩, true⟩

end Machin.Pool
