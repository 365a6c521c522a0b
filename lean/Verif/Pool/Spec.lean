import Verif.Pool.Model

/-! # Specification of the pools -/

namespace Machin.Pool.Spec

variable {α β ε : Type}

/-- Deliver chunks in the order `ds` to a map handle; `out` gives the outcome of each chunk. -/
def deliverMap (out : Nat → Obj β ε) (r : MapRes β ε) (ds : List Nat) : MapRes β ε :=
  ds.foldl (fun r i => r.set i (out i)) r

/-- `ceil(n / c)` -/
def numChunks (n c : Nat) : Nat := (n + c - 1) / c

/-- The exception of the first failing chunk in delivery order. -/
def firstError (out : Nat → Obj β ε) : List Nat → Option ε
  | [] => none
  | i :: ds => match out i with
    | .error e => some e
    | .ok _ => firstError out ds

/-- What a handle receives: results are taken until the handle is complete, later ones are ignored. -/
def receive (h : Handle β ε × Bool) : List (Nat × Obj β ε) → Handle β ε × Bool
  | [] => h
  | d :: ds => if h.2 then receive ((h.1.set d.1 d.2).1, !(h.1.set d.1 d.2).2) ds else h

/-- The deliveries addressed to a job. -/
def deliveries (job : Nat) : List (Event β ε) → List (Nat × Obj β ε)
  | [] => []
  | .deliver j c o :: evs => if j = job then (c, o) :: deliveries job evs else deliveries job evs
  | .submit _ :: evs => deliveries job evs

/-- The submissions, in order: the job number of a submission is its position. -/
def submits : List (Event β ε) → List Submit
  | [] => []
  | .submit s :: evs => s :: submits evs
  | .deliver _ _ _ :: evs => submits evs

end Machin.Pool.Spec

namespace Machin.Pool.Spec

variable {β ε : Type}

/-- What happens to an iterator: a delivery of the result of task `i`, or a call of `next` by its consumer. -/
inductive IEv
  | deliver (i : Nat)
  | next
  deriving DecidableEq, Repr

/-- The tasks delivered so far, in order. -/
def delivered : List IEv → List Nat
  | [] => []
  | .deliver i :: evs => i :: delivered evs
  | .next :: evs => delivered evs

/-- One event; the second component collects what `next` yielded. -/
def iStep (ordered : Bool) (out : Nat → Obj β ε) (s : IMap β ε × List (Obj β ε)) : IEv → IMap β ε × List (Obj β ε)
  | .deliver i => ((if ordered then s.1.set i (out i) else s.1.setUnordered i (out i)).1, s.2)
  | .next => match s.1.next with
    | (it, .item o) => (it, s.2 ++ [o])
    | (it, _) => (it, s.2)

/-- A history of an iterator over `n` tasks. -/
def iRun (ordered : Bool) (out : Nat → Obj β ε) (n : Nat) (evs : List IEv) : IMap β ε × List (Obj β ε) :=
  evs.foldl (iStep ordered out) (IMap.new n, [])

end Machin.Pool.Spec
