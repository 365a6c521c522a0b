import Verif.Base.Dict
import Verif.Base.Err

/-!
# Model of the result side of the pools

`machin/parallel/pool.py`: result handles (`AsyncResult`, `MapResult`, `IMapIterator`, `IMapUnorderedIterator`), job
registration, task splitting and result routing of `BasePool`.

The outcome of a task is `Except ε (List β)`: the exception, or the list of results of the task (a one-element list for
tasks of `apply` and of `imap` with chunk size 1, the results of the chunk otherwise). The methods of the handles are taken
to be atomic. Serialization is not modelled here.
-/

namespace Machin.Pool

variable {α β ε : Type}

/-- `obj = (success, value)` -/
abbrev Obj (β ε : Type) := Except ε (List β)

/-- A call of a callback. -/
inductive Call (β ε : Type)
  | callback (v : List (Option β))
  | errorCallback (e : ε)
  deriving DecidableEq, Repr

/-- `AsyncResult` (pool.py:73-86). `calls` records the calls of callbacks. -/
structure AsyncRes (β ε : Type) where
  hasCallback : Bool
  hasErrorCallback : Bool
  value : Option (Obj β ε)
  ready : Bool
  calls : List (Call β ε)
  deriving DecidableEq, Repr

/-- `AsyncResult.__init__` (pool.py:78-86). -/
def AsyncRes.new (cb ecb : Bool) : AsyncRes β ε := ⟨cb, ecb, none, false, []⟩

/-- `AsyncResult.set` (pool.py:137-147). It always removes the job. -/
def AsyncRes.set (r : AsyncRes β ε) (_chunk : Nat) (obj : Obj β ε) : AsyncRes β ε :=
  { r with
    value := some obj
    ready := true
    calls := r.calls ++
      (match obj with
       | .ok l => if r.hasCallback then [.callback (l.map some)] else []
       | .error e => if r.hasErrorCallback then [.errorCallback e] else []) }

/-- `MapResult` (pool.py:150-166); `value` is `_success` and `_value`. -/
structure MapRes (β ε : Type) where
  chunksize : Nat
  left : Int
  value : Except ε (List (Option β))
  ready : Bool
  hasCallback : Bool
  hasErrorCallback : Bool
  calls : List (Call β ε)
  deriving DecidableEq, Repr

/-- `MapResult.__init__` (pool.py:155-166). A chunk size of 0 is ready at once. -/
def MapRes.new (chunksize length : Nat) (cb ecb : Bool) : MapRes β ε :=
  if chunksize = 0 then ⟨0, 0, .ok (List.replicate length none), true, cb, ecb, []⟩
  else ⟨chunksize, (length / chunksize + if length % chunksize ≠ 0 then 1 else 0 : Nat),
    .ok (List.replicate length none), false, cb, ecb, []⟩

/-- The slice assignment `l[a:b] = new`. -/
def setSlice {γ : Type} (l : List γ) (a b : Nat) (new : List γ) : List γ := l.take a ++ new ++ l.drop (max a b)

/-- `MapResult.set` (pool.py:168-193). -/
def MapRes.set (r : MapRes β ε) (chunk : Nat) (obj : Obj β ε) : MapRes β ε :=
  let left := r.left - 1
  match obj, r.value with
  | .ok result, .ok value =>
    let value := setSlice value (chunk * r.chunksize) ((chunk + 1) * r.chunksize) (result.map some)
    if left = 0 then
      { r with left := left, value := .ok value, ready := true,
               calls := r.calls ++ if r.hasCallback then [.callback value] else [] }
    else { r with left := left, value := .ok value }
  | obj, value =>
    let value := match obj, value with
      -- only store the first exception
      | .error e, .ok _ => .error e
      | _, v => v
    if left = 0 then
      { r with left := left, value := value, ready := true,
               calls := r.calls ++ (if r.hasErrorCallback then
                 (match value with | .error e => [.errorCallback e] | .ok _ => []) else []) }
    else { r with left := left, value := value }

/-- `IMapIterator` (pool.py:196-209). -/
structure IMap (β ε : Type) where
  items : List (Obj β ε)
  index : Nat
  length : Nat
  unsorted : PyDict Nat (Obj β ε)
  deriving DecidableEq, Repr

/-- `IMapIterator.__init__` (pool.py:201-209). -/
def IMap.new (length : Nat) : IMap β ε := ⟨[], 0, length, []⟩

/-- The loop `while self._index in self._unsorted` (pool.py:254-257); every pass removes an entry of `_unsorted`, so the
number of entries bounds the number of passes. -/
def IMap.drain : Nat → IMap β ε → IMap β ε
  | 0, it => it
  | fuel + 1, it =>
    match it.unsorted.get? it.index with
    | none => it
    | some obj =>
      IMap.drain fuel { it with items := it.items ++ [obj], index := it.index + 1, unsorted := it.unsorted.erase it.index }

/-- `IMapIterator.set` (pool.py:244-263); the flag tells whether a waiting consumer is notified. -/
def IMap.set (it : IMap β ε) (chunk : Nat) (obj : Obj β ε) : IMap β ε × Bool :=
  if it.index = chunk then
    (IMap.drain it.unsorted.length { it with items := it.items ++ [obj], index := it.index + 1 }, true)
  else ({ it with unsorted := it.unsorted.set chunk obj }, false)

/-- `IMapUnorderedIterator.set` (pool.py:278-287). -/
def IMap.setUnordered (it : IMap β ε) (_chunk : Nat) (obj : Obj β ε) : IMap β ε × Bool :=
  ({ it with items := it.items ++ [obj], index := it.index + 1 }, true)

/-- The outcome of `next` up to the point where it would wait. -/
inductive Next (β ε : Type)
  | item (obj : Obj β ε)
  | stop
  | wait
  deriving DecidableEq, Repr

/-- `IMapIterator.next` (pool.py:225-231): an item, `StopIteration`, or waiting. -/
def IMap.next (it : IMap β ε) : IMap β ε × Next β ε :=
  match it.items with
  | obj :: items => ({ it with items := items }, .item obj)
  | [] => if it.index = it.length then (it, .stop) else (it, .wait)

/-! ### Jobs -/

/-- A result handle. -/
inductive Handle (β ε : Type)
  | async (r : AsyncRes β ε)
  | map (r : MapRes β ε)
  | imap (it : IMap β ε)
  | imapUnordered (it : IMap β ε)
  deriving DecidableEq, Repr

/-- `set` of a handle; the flag tells whether it removes its job from the cache. -/
def Handle.set (h : Handle β ε) (chunk : Nat) (obj : Obj β ε) : Handle β ε × Bool :=
  match h with
  | .async r => (.async (r.set chunk obj), true)
  | .map r => (.map (r.set chunk obj), decide ((r.set chunk obj).left = 0))
  | .imap it => (.imap (it.set chunk obj).1, decide ((it.set chunk obj).1.index = it.length))
  | .imapUnordered it =>
    (.imapUnordered (it.setUnordered chunk obj).1, decide ((it.setUnordered chunk obj).1.index = it.length))

/-- The pool: the job counter, the cache, and the handles that left the cache (their users still refer to them). -/
structure Pool (β ε : Type) where
  counter : Nat
  cache : PyDict Nat (Handle β ε)
  done : PyDict Nat (Handle β ε)

/-- The handle of a job. -/
def Pool.handle? (p : Pool β ε) (job : Nat) : Option (Handle β ε) := (p.cache.get? job).or (p.done.get? job)

/-- `_split_tasks` (pool.py:827-842); the number of elements bounds the number of passes. -/
def splitLoop (c : Nat) : Nat → List α → List (List α)
  | 0, _ => []
  | fuel + 1, xs => if xs.take c = [] then [] else xs.take c :: splitLoop c fuel (xs.drop c)

/-- `_split_tasks` (pool.py:827-842). -/
def splitTasks (c : Nat) (xs : List α) : List (List α) := splitLoop c (xs.length + 1) xs

/-- The chunk size of `_map_async` (pool.py:530-535). -/
def mapChunksize (workers : Nat) (n : Nat) (chunksize : Option Nat) : Nat :=
  if n = 0 then 0
  else chunksize.getD (n / (workers * 4) + if n % (workers * 4) ≠ 0 then 1 else 0)

/-- A submission: the kind of call with the number of inputs. -/
inductive Submit
  /-- `apply_async`, with or without callbacks -/
  | apply (cb ecb : Bool)
  /-- `_map_async` of `n` inputs with an effective chunk size -/
  | map (n chunksize : Nat) (cb ecb : Bool)
  /-- `_imap` of `n` tasks -/
  | imap (n : Nat)
  /-- `_imap` of `n` tasks with the unordered iterator -/
  | imapUnordered (n : Nat)

/-- The handle a submission creates, and whether it is registered in the cache. -/
def Submit.handle : Submit → Handle β ε × Bool
  | .apply cb ecb => (.async (AsyncRes.new cb ecb), true)
  | .map n c cb ecb => (.map (MapRes.new c n cb ecb), decide (c ≠ 0))
  | .imap n => (.imap (IMap.new n), true)
  | .imapUnordered n => (.imapUnordered (IMap.new n), true)

/-- Number of tasks of a submission (pool.py:392, 542-543, 564-565, 572-573). -/
def Submit.tasks : Submit → Nat
  | .apply _ _ => 1
  | .map n c _ _ => (splitTasks c (List.range n)).length
  | .imap n => n
  | .imapUnordered n => n

/-- Register a handle under a job number. -/
def Pool.register (p : Pool β ε) (job : Nat) (h : Handle β ε × Bool) : Pool β ε :=
  if h.2 then { p with cache := p.cache.set job h.1 } else { p with done := p.done.set job h.1 }

/-- `_next_job_idx` and the creation of the handle (pool.py:390-391, 537-541, 561-571, 769-772). -/
def Pool.submit (p : Pool β ε) (s : Submit) : Pool β ε :=
  { p with counter := p.counter + 1 }.register p.counter s.handle

/-- The body of the loop of `_handle_results` (pool.py:819-823); also the error path of `_submit_task` (pool.py:778-785).
-/
def Pool.deliver (p : Pool β ε) (job chunk : Nat) (obj : Obj β ε) : Pool β ε :=
  match p.cache.get? job with
  | none => p
  | some h =>
    if (h.set chunk obj).2 then
      { p with cache := p.cache.erase job, done := p.done.set job (h.set chunk obj).1 }
    else { p with cache := p.cache.set job (h.set chunk obj).1 }

/-- An event seen by the pool. -/
inductive Event (β ε : Type)
  | submit (s : Submit)
  | deliver (job chunk : Nat) (obj : Obj β ε)

/-- One event. -/
def Pool.step (p : Pool β ε) : Event β ε → Pool β ε
  | .submit s => p.submit s
  | .deliver j c o => p.deliver j c o

/-- Not a function of the code: a sequence of events, from the empty pool. -/
def Pool.run (evs : List (Event β ε)) : Pool β ε := evs.foldl Pool.step ⟨0, [], []⟩

/-- The condition under which the handler threads of a closed pool end (pool.py:793-795, 807-809). -/
def Pool.canFinish (p : Pool β ε) : Bool := p.cache.isEmpty

/-! ### Workers -/

/-- `map_caller` (pool.py:22-23): the results of the elements in order, or the first exception. -/
def mapCaller (f : α → Except ε β) : List α → Except ε (List β)
  | [] => .ok []
  | x :: xs =>
    match f x with
    | .error e => .error e
    | .ok y =>
      match mapCaller f xs with
      | .error e => .error e
      | .ok ys => .ok (y :: ys)

end Machin.Pool
