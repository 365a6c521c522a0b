import Verif.Base.Dict

/-!
# Model of consumers of an imap iterator that wait

`machin/parallel/pool.py`, `IMapIterator.next` (211-242), `set` (244-263) and `IMapUnorderedIterator.set` (278-287), together
with the condition variable: `wait` releases the lock and appends the caller to the waiters, `notify` moves the first waiter
to those that may go on, and such a thread goes on when it has got the lock back; other threads may take the lock before it.
Every consumer calls `next()` without a timeout, as `__next__` does (268-270). The results are numbers; which call produced
them and in which order they are yielded is the subject of C30. Removing the iterator from the cache of the pool is left out.
-/

namespace Machin.PoolLife

/-- What a call of `next` came to. -/
inductive Out
  | item (v : Nat)
  | stopIteration
  | timeoutError
  deriving DecidableEq, Repr

/-- The iterator (200-209), the waiters of its condition variable, the threads that have been notified, and what the calls
came to, in order, with the consumer. -/
structure Iter where
  items : List Nat
  index : Nat
  length : Nat
  unsorted : PyDict Nat Nat
  waiting : List Nat
  woken : List Nat
  outs : List (Nat × Out)
  deriving DecidableEq, Repr

/-- `IMapIterator.__init__` (200-209). -/
def Iter.new (length : Nat) : Iter := ⟨[], 0, length, [], [], [], []⟩

/-- `notify` of the condition variable. -/
def Iter.notify (it : Iter) : Iter :=
  match it.waiting with
  | [] => it
  | c :: rest => { it with waiting := rest, woken := it.woken ++ [c] }

/-- The loop of `set` (253-256); at most as many rounds as there are stored results. -/
def Iter.flush : Nat → Iter → Iter
  | 0, it => it
  | fuel + 1, it =>
    match it.unsorted.get? it.index with
    | some v => Iter.flush fuel { it with items := it.items ++ [v], index := it.index + 1,
                                          unsorted := it.unsorted.erase it.index }
    | none => it

/-- `IMapIterator.set` (244-263). -/
def Iter.set (it : Iter) (i v : Nat) : Iter :=
  if it.index = i then
    (Iter.flush it.unsorted.length { it with items := it.items ++ [v], index := it.index + 1 }).notify
  else { it with unsorted := it.unsorted.set i v }

/-- `IMapUnorderedIterator.set` (278-287). -/
def Iter.setUnordered (it : Iter) (v : Nat) : Iter :=
  Iter.notify { it with items := it.items ++ [v], index := it.index + 1 }

/-- Steps: a result arrives, a consumer calls `next`, a notified consumer gets the lock. -/
inductive IStep
  | result (i v : Nat)
  | next (c : Nat)
  | wake (c : Nat)
  deriving DecidableEq, Repr

/-- One step of an ordered or an unordered iterator. A consumer that is inside a call cannot call. -/
def istep (ordered : Bool) (it : Iter) : IStep → Iter
  | .result i v => if ordered then it.set i v else it.setUnordered v
  | .next c =>                                                    -- 226-232
    if c ∈ it.waiting ∨ c ∈ it.woken then it
    else match it.items with
      | v :: rest => { it with items := rest, outs := it.outs ++ [(c, .item v)] }
      | [] =>
        if it.index = it.length then { it with outs := it.outs ++ [(c, .stopIteration)] }
        else { it with waiting := it.waiting ++ [c] }
  | .wake c =>                                                    -- 233-238
    if c ∈ it.woken then
      match it.items with
      | v :: rest => { it with items := rest, woken := it.woken.erase c, outs := it.outs ++ [(c, .item v)] }
      | [] =>
        { it with woken := it.woken.erase c,
                  outs := it.outs ++ [(c, if it.index = it.length then .stopIteration else .timeoutError)] }
    else it

/-- A history. -/
def irun (ordered : Bool) (it : Iter) (steps : List IStep) : Iter := steps.foldl (istep ordered) it

end Machin.PoolLife
