import Mathlib.Algebra.BigOperators.Group.List.Basic
import Verif.Base.Dict

/-!
# Model of the gradient server

`PushPullGradServerImpl` of `machin/parallel/server/param_server.py`: the queues and the reduction threads of all members.
A gradient dictionary maps parameter names to values in a commutative monoid (componentwise addition of tensors).
Queue operations are atomic; every operation of a reduction thread is a separate step, so all interleavings of pushes and
reduction threads are sequences of steps. The waiting condition reads both queue sizes in one step (both queues only grow
while the thread waits).
-/

namespace Machin.Server

variable {M : Type}

/-- A gradient dictionary. -/
abbrev Grad (M : Type) := PyDict String M

/-- One item of the inner loop of `_reduce_batch` (param_server.py:480-484). -/
def addItem (acc : PyDict String (List M)) (kv : String × M) : PyDict String (List M) :=
  match acc.get? kv.1 with
  | none => acc.set kv.1 [kv.2]
  | some l => acc.set kv.1 (l ++ [kv.2])

/-- The loop over the items of one dictionary (param_server.py:480-484). -/
def addGrad (acc : PyDict String (List M)) (g : Grad M) : PyDict String (List M) := g.foldl addItem acc

/-- `_reduce_batch` (param_server.py:467-493) on a gathered batch; `red` is the reduction of a stack of tensors. -/
def reduceBatch (red : List M → M) (batch : List (Grad M)) : Grad M :=
  (batch.foldl addGrad []).map fun kv => (kv.1, red kv.2)

/-- The program counter of a reduction thread. -/
inductive PC (M : Type)
  /-- waiting for a full batch (line 414) -/
  | idle
  /-- discarding from the master queue (line 422) -/
  | dropM
  /-- discarding from the secondary queue (line 424) -/
  | dropS
  /-- before the test of line 427 -/
  | chkM
  /-- in `_reduce_batch` on the master queue -/
  | gatherM (batch : List (Grad M))
  /-- before the test of line 452 -/
  | chkS
  /-- in `_reduce_batch` on the secondary queue -/
  | gatherS (batch : List (Grad M))
  /-- before pushing the reduced result to the primary reducer (line 463) -/
  | send (d : Grad M)
  /-- ended by an exception -/
  | dead

/-- A member: its two queues and its reduction thread. -/
structure Proc (M : Type) where
  masterQ : List (Grad M)
  secQ : List (Grad M)
  pc : PC M

/-- The settings. -/
structure GCfg (M : Type) where
  batchSize : Nat
  maxQueue : Nat
  red : List M → M
  /-- whether the primary reducer manages a model and an optimizer -/
  managed : Bool
  /-- the parameter names of the managed model -/
  modelKeys : List String

/-- What a step of a reduction thread does besides changing its own member. -/
inductive Effect (M : Type)
  | none
  /-- an old request is discarded -/
  | discard (d : Grad M)
  /-- the gradients are assigned to the managed model, and the optimizer steps -/
  | apply (d : Grad M)
  /-- the reduced gradients are dropped: no model, or a parameter without gradient (`KeyError`) -/
  | lose (d : Grad M)
  /-- the reduced gradients are pushed to the primary reducer -/
  | send (d : Grad M)

/-- One step of `_task_reduce_grad` (param_server.py:411-465). -/
def Proc.step (cfg : GCfg M) (p : Proc M) : Proc M × Effect M :=
  match p.pc with
  | .idle =>
    if p.masterQ.length < cfg.batchSize ∧ p.secQ.length < cfg.batchSize then (p, .none)
    else ({ p with pc := .dropM }, .none)
  | .dropM =>
    if p.masterQ.length > cfg.maxQueue then
      match p.masterQ with
      | [] => (p, .none)
      | d :: q => ({ p with masterQ := q }, .discard d)
    else ({ p with pc := .dropS }, .none)
  | .dropS =>
    if p.secQ.length > cfg.maxQueue then
      match p.secQ with
      | [] => (p, .none)
      | d :: q => ({ p with secQ := q }, .discard d)
    else ({ p with pc := .chkM }, .none)
  | .chkM =>
    if p.masterQ.length ≥ cfg.batchSize then ({ p with pc := .gatherM [] }, .none)
    else ({ p with pc := .chkS }, .none)
  | .gatherM b =>
    if b.length < cfg.batchSize then
      match p.masterQ with
      -- `Queue.get` blocks
      | [] => (p, .none)
      | d :: q => ({ p with masterQ := q, pc := .gatherM (b ++ [d]) }, .none)
    else
      let d := reduceBatch cfg.red b
      if cfg.managed then
        if ∀ k ∈ cfg.modelKeys, k ∈ d.keys then ({ p with pc := .chkS }, .apply d)
        else ({ p with pc := .dead }, .lose d)
      else ({ p with pc := .chkS }, .lose d)
  | .chkS =>
    if p.secQ.length ≥ cfg.batchSize then ({ p with pc := .gatherS [] }, .none)
    else ({ p with pc := .idle }, .none)
  | .gatherS b =>
    if b.length < cfg.batchSize then
      match p.secQ with
      | [] => (p, .none)
      | d :: q => ({ p with secQ := q, pc := .gatherS (b ++ [d]) }, .none)
    else ({ p with pc := .send (reduceBatch cfg.red b) }, .none)
  | .send d => ({ p with pc := .idle }, .send d)
  | .dead => (p, .none)

/-- All members; what was applied, discarded and lost so far (not stored by the code). -/
structure World (M : Type) where
  procs : List (Proc M)
  primary : Nat
  applied : List (Grad M)
  discarded : List (Grad M)
  lost : List (Grad M)

/-- A step of the system. -/
inductive GAct (M : Type)
  /-- a client pushes gradients to member `i` (param_server.py:164-185, 398-403) -/
  | push (i : Nat) (g : Grad M)
  /-- the reduction thread of member `i` makes a step -/
  | thread (i : Nat)

/-- Append to the master queue of a member (`_push_service` with `REDUCE_PRIMARY`, param_server.py:404-407). -/
def Proc.pushM (p : Proc M) (d : Grad M) : Proc M := { p with masterQ := p.masterQ ++ [d] }

/-- Append to the secondary queue of a member (`_push_service` with `REDUCE_SECONDARY`, param_server.py:400-403). -/
def Proc.pushS (p : Proc M) (d : Grad M) : Proc M := { p with secQ := p.secQ ++ [d] }

/-- Record the effect of a thread step. -/
def World.effect (w : World M) : Effect M → World M
  | .none => w
  | .discard d => { w with discarded := w.discarded ++ [d] }
  | .apply d => { w with applied := w.applied ++ [d] }
  | .lose d => { w with lost := w.lost ++ [d] }
  | .send d => { w with procs := w.procs.modify w.primary (·.pushM d) }

/-- One step of the system; steps of members that do not exist change nothing. -/
def World.step (cfg : GCfg M) (w : World M) : GAct M → World M
  | .push i g => { w with procs := w.procs.modify i (·.pushS g) }
  | .thread i =>
    match w.procs[i]? with
    | none => w
    | some p => { w with procs := w.procs.set i (p.step cfg).1 }.effect (p.step cfg).2

/-- A sequence of steps. -/
def World.run (cfg : GCfg M) (w : World M) (as : List (GAct M)) : World M := as.foldl (World.step cfg) w

/-- The initial state of `n` members. -/
def World.init (n primary : Nat) : World M := ⟨List.replicate n ⟨[], [], .idle⟩, primary, [], [], []⟩

end Machin.Server
