import Verif.Base.Err

/-!
# Model of the life of a pool

`machin/parallel/pool.py`, `BasePool`: the worker loop (722-765), the two handler threads `_handle_workers` (787-803) and
`_handle_results` (805-825), `maintain_pool` and `repopulate_pool` (619-665), `close`, `terminate`, `join` (576-609) and
`_finalize_pool` (844-868). One user thread submits single tasks (`apply_async`, 367-393), closes, terminates and joins; its
calls, the two handlers and the workers take steps in any order. Tasks are numbers (the job index), every task returns; what
it returns is the subject of C28-C32. Workers end by themselves only after `maxtasksperchild` tasks; queues are unbounded.
-/

namespace Machin.PoolLife

/-- What is in the input queue: a task, or `None`. -/
inductive Item
  | task (t : Nat)
  | stop
  deriving DecidableEq, Repr

/-- A worker process (722-765): waiting in `get()` after so many completed tasks, running a task, or exited. -/
inductive Worker
  | idle (completed : Nat)
  | busy (t completed : Nat)
  | exited
  deriving DecidableEq, Repr

/-- Where `_handle_workers` is: at the head of its loop (793), between the removal of the exited workers and
`repopulate_pool` in `maintain_pool` (653-665), sending the remaining stop signals (799-801), at its end. -/
inductive WPos
  | head
  | swept
  | sending (k : Nat)
  | done
  deriving DecidableEq, Repr

/-- `PoolStates` (66-70). -/
inductive Mode
  | run | close | terminate
  deriving DecidableEq, Repr

/-- The state. The last four fields record what has happened: the tasks submitted, executed and delivered to their results,
and whether `_finalize_pool` has terminated the workers. -/
structure St where
  mode : Mode
  inq : List Item
  outq : List Nat
  cache : List Nat
  pool : List Worker
  wh : WPos
  rh : Bool
  submitted : List Nat
  executed : List Nat
  delivered : List Nat
  killed : Bool
  deriving DecidableEq, Repr

/-- The pool after its constructor (300-351). -/
def init (processes : Nat) : St :=
  ⟨.run, [], [], [], List.replicate processes (.idle 0), .head, false, [], [], [], false⟩

/-- The steps of the threads and processes. -/
inductive Step
  | submit
  | close
  | terminate
  | get (i : Nat)
  | finish (i : Nat)
  | sweep
  | repopulate
  | leave
  | send
  | deliver
  | rleave
  | kill
  deriving DecidableEq, Repr

/-- The condition of the loops of both handlers (793-795, 807-809). -/
def St.goOn (s : St) : Bool := s.mode == .run || (!s.cache.isEmpty && s.mode != .terminate)

/-- Does a worker leave its loop after this many tasks (749)? -/
def exhausted (maxtasks : Option Nat) (completed : Nat) : Bool :=
  match maxtasks with
  | none => false
  | some m => decide (m ≤ completed)

/-- One step of a pool of `processes` workers; a step that is not possible changes nothing. -/
def step (processes : Nat) (maxtasks : Option Nat) (s : St) : Step → St
  | .submit =>                                                    -- 388-393
    if s.mode = .run then
      let t := s.submitted.length
      { s with cache := s.cache ++ [t], inq := s.inq ++ [.task t], submitted := s.submitted ++ [t] }
    else s
  | .close => if s.mode = .run then { s with mode := .close } else s          -- 586-587
  | .terminate => { s with mode := .terminate }                               -- 595, 851
  | .get i =>                                                     -- 750-758
    match s.pool[i]?, s.inq with
    | some (.idle c), .task t :: rest => { s with inq := rest, pool := s.pool.set i (.busy t c) }
    | some (.idle _), .stop :: rest => { s with inq := rest, pool := s.pool.set i .exited }
    | _, _ => s
  | .finish i =>                                                  -- 759-764, 749
    match s.pool[i]? with
    | some (.busy t c) =>
      { s with outq := s.outq ++ [t], executed := s.executed ++ [t],
               pool := s.pool.set i (if exhausted maxtasks (c + 1) then .exited else .idle (c + 1)) }
    | _ => s
  | .sweep =>                                                     -- 793-796, 653-664
    if s.wh = .head ∧ s.goOn then { s with pool := s.pool.filter (· ≠ .exited), wh := .swept } else s
  | .repopulate =>                                                -- 665, 627-643
    if s.wh = .swept then
      { s with pool := s.pool ++ List.replicate (processes - s.pool.length) (.idle 0), wh := .head }
    else s
  | .leave => if s.wh = .head ∧ ¬ s.goOn then { s with wh := .sending s.pool.length } else s      -- 799
  | .send =>                                                      -- 799-803
    match s.wh with
    | .sending 0 => { s with wh := .done }
    | .sending (k + 1) => { s with inq := s.inq ++ [.stop], wh := .sending k }
    | _ => s
  | .deliver =>                                                   -- 810-823
    if s.rh then s
    else if s.goOn then
      match s.outq with
      | [] => s
      | t :: rest =>
        if t ∈ s.cache then { s with outq := rest, cache := s.cache.erase t, delivered := s.delivered ++ [t] }
        else { s with outq := rest }
    else s
  | .rleave => if s.rh = false ∧ ¬ s.goOn then { s with rh := true } else s   -- 825
  | .kill =>                                                      -- 863-868
    if s.mode = .terminate ∧ s.wh = .done ∧ s.rh then
      { s with pool := s.pool.map fun _ => .exited, killed := true }
    else s

/-- A history. -/
def run (processes : Nat) (maxtasks : Option Nat) (s : St) (steps : List Step) : St :=
  steps.foldl (step processes maxtasks) s

/-- `join` (604-608) can return: the pool is not running, both handlers have ended and no worker is alive. -/
def Joined (s : St) : Prop := s.mode ≠ .run ∧ s.wh = .done ∧ s.rh = true ∧ ∀ w ∈ s.pool, w = .exited

instance (s : St) : Decidable (Joined s) := by unfold Joined; infer_instance

/-- The default chunk size of `_map_async` for `n` items (530-535), with the number of workers that are in the list at that
moment. `divmod` by zero raises `ZeroDivisionError`. -/
def chunkSize (s : St) (n : Nat) : Except Err Nat :=
  if s.pool.length * 4 = 0 then .error .zeroDiv
  else
    let c := n / (s.pool.length * 4) + (if n % (s.pool.length * 4) = 0 then 0 else 1)
    .ok (if n = 0 then 0 else c)

end Machin.PoolLife
