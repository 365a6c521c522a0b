import Verif.Base.Dict
import Mathlib.Logic.Function.Basic

/-!
# Model of the parallel gym wrappers (`machin/env/wrappers/openai_gym.py`)

Environment indexes are natural numbers (Python also accepts negative ones). An environment is a state with two methods that may
raise; the reward and the info dictionary are part of the observation. Worker processes that die are not modelled.
-/

namespace Machin.EnvWrap

/-- A gym environment: `reset` and `step`; the answer of `step` is the observation (with reward and info) and the flag `terminal`.
`X` are the exceptions environments raise. -/
structure Sys (E A O X : Type) where
  reset : E → E × Except X O
  step : E → A → E × Except X (O × Bool)

/-- Command sent to a worker: method name and arguments (openai_gym.py:374). -/
inductive Cmd (A : Type)
  | reset
  | step (a : A)
  deriving DecidableEq

/-- A result of a method. -/
inductive Val (O : Type)
  | obs (o : O)
  | stepped (o : O) (terminal : Bool)
  deriving DecidableEq

/-- `getattr(env, method)(*args, **kwargs)` (openai_gym.py:410). -/
def Sys.run {E A O X : Type} (s : Sys E A O X) (e : E) : Cmd A → E × Except X (Val O)
  | .reset => let (e, r) := s.reset e; (e, r.map Val.obs)
  | .step a => let (e, r) := s.step e a; (e, r.map fun p => Val.stepped p.1 p.2)

/-- Exceptions of the wrappers. -/
inductive Fail (X : Type)
  | value
  | index
  | key
  | type
  | termination
  | env (x : X)
  deriving DecidableEq

/-! ### `ParallelWrapperDummy` -/

/-- `ParallelWrapperDummy` (openai_gym.py:31-39). -/
structure Dummy (E : Type) where
  n : Nat
  envs : Nat → E
  terminal : Nat → Bool

/-- `__init__`. -/
def Dummy.new {E : Type} (n : Nat) (envs : Nat → E) : Dummy E := ⟨n, envs, fun _ => false⟩

/-- `[e.reset() for e in self._envs]` over the given positions: terminal flags are not touched. -/
def resetEnvs {E A O X : Type} (s : Sys E A O X) : List Nat → Dummy E → Dummy E × Except (Fail X) (List O)
  | [], d => (d, .ok [])
  | i :: is, d =>
    match s.reset (d.envs i) with
    | (e, .error x) => ({ d with envs := Function.update d.envs i e }, .error (.env x))
    | (e, .ok o) =>
      match resetEnvs s is { d with envs := Function.update d.envs i e } with
      | (d, .ok os) => (d, .ok (o :: os))
      | (d, .error f) => (d, .error f)

/-- The loop of `reset` over given indexes (openai_gym.py:53-55). -/
def resetLoop {E A O X : Type} (s : Sys E A O X) : List Nat → Dummy E → Dummy E × Except (Fail X) (List O)
  | [], d => (d, .ok [])
  | i :: is, d =>
    if d.n ≤ i then (d, .error .index)
    else
      match s.reset (d.envs i) with
      | (e, .error x) => ({ d with envs := Function.update d.envs i e }, .error (.env x))
      | (e, .ok o) =>
        match resetLoop s is { d with envs := Function.update d.envs i e, terminal := Function.update d.terminal i false } with
        | (d, .ok os) => (d, .ok (o :: os))
        | (d, .error f) => (d, .error f)

/-- `ParallelWrapperDummy.reset` (openai_gym.py:41-56). -/
def Dummy.reset {E A O X : Type} (s : Sys E A O X) (d : Dummy E) : Option (List Nat) → Dummy E × Except (Fail X) (List O)
  | none =>
    match resetEnvs s (List.range d.n) d with
    | (d, .ok os) => ({ d with terminal := fun _ => false }, .ok os)
    | (d, .error f) => (d, .error f)
  | some idx => resetLoop s idx d

/-- `[e.step(a) for e, a in zip(envs, action)]` (openai_gym.py:84-85). -/
def stepEnvs {E A O X : Type} (s : Sys E A O X) : List (Nat × A) → Dummy E → Dummy E × Except (Fail X) (List (O × Bool))
  | [], d => (d, .ok [])
  | (i, a) :: is, d =>
    match s.step (d.envs i) a with
    | (e, .error x) => ({ d with envs := Function.update d.envs i e }, .error (.env x))
    | (e, .ok r) =>
      match stepEnvs s is { d with envs := Function.update d.envs i e } with
      | (d, .ok rs) => (d, .ok (r :: rs))
      | (d, .error f) => (d, .error f)

/-- `self._terminal[idx] |= terminal`: the right hand side is computed from the old array, then assigned position after
position. -/
def orTerminal (old : Nat → Bool) (idx : List Nat) (terminal : List Bool) : Nat → Bool :=
  (idx.zip terminal).foldl (fun t p => Function.update t p.1 (old p.1 || p.2)) old

/-- `ParallelWrapperDummy.step` (openai_gym.py:58-95). Unpacking `zip(*[])` is a `ValueError`. -/
def Dummy.step {E A O X : Type} (s : Sys E A O X) (d : Dummy E) (action : List A) (idx : Option (List Nat)) :
    Dummy E × Except (Fail X) (List (O × Bool)) :=
  let idx := idx.getD (List.range d.n)
  if action.length ≠ idx.length then (d, .error .value)
  else if idx.any (fun i => d.n ≤ i) then (d, .error .index)
  else if idx.any d.terminal then (d, .error .termination)
  else
    match stepEnvs s (idx.zip action) d with
    | (d, .error f) => (d, .error f)
    | (d, .ok rs) =>
      if rs = [] then (d, .error .value)
      else ({ d with terminal := orTerminal d.terminal idx (rs.map (·.2)) }, .ok rs)

/-- `active` (openai_gym.py:152-156). -/
def Dummy.active {E : Type} (d : Dummy E) : List Nat := (List.range d.n).filter fun i => !d.terminal i

/-! ### `ParallelWrapperSubProc` -/

/-- `ParallelWrapperSubProc` (openai_gym.py:183-228): the environments live in the workers, each worker has a command queue, all
share one result queue. -/
structure Sub (E A O X : Type) where
  n : Nat
  envs : Nat → E
  cmds : Nat → List (Cmd A)
  results : List (Nat × Except X (Val O))
  terminal : Nat → Bool

/-- `__init__`. -/
def Sub.new {E A O X : Type} (n : Nat) (envs : Nat → E) : Sub E A O X := ⟨n, envs, fun _ => [], [], fun _ => false⟩

/-- One round of the worker loop of environment `i` (openai_gym.py:396-415). -/
def workerStep {E A O X : Type} (s : Sys E A O X) (st : Sub E A O X) (i : Nat) : Sub E A O X :=
  match st.cmds i with
  | [] => st
  | c :: cs =>
    let (e, r) := s.run (st.envs i) c
    { st with envs := Function.update st.envs i e, cmds := Function.update st.cmds i cs, results := st.results ++ [(i, r)] }

/-- What can happen while the master waits: a worker does a round, or the master takes a result. -/
inductive Ev
  | worker (i : Nat)
  | get

/-- What a call ends with; `waiting` says that it has not ended when the given schedule is over. -/
inductive Ret (X V : Type)
  | ok (v : V)
  | fail (f : Fail X)
  | waiting

/-- Putting the commands (openai_gym.py:373-374); `false` is an `IndexError`, after which earlier commands stay in the queues. -/
def putAll {E A O X : Type} : List Nat → List (Cmd A) → Sub E A O X → Sub E A O X × Bool
  | [], _, st => (st, true)
  | i :: is, args, st =>
    if st.n ≤ i then (st, false)
    else
      match args with
      | [] => (st, false)
      | c :: args => putAll is args { st with cmds := Function.update st.cmds i (st.cmds i ++ [c]) }

/-- The loop that collects the results (openai_gym.py:375-380); `want` is `len(env_idxs)`. -/
def collect {E A O X : Type} (s : Sys E A O X) (want : Nat) :
    List Ev → Sub E A O X → PyDict Nat (Val O) → Sub E A O X × Ret X (PyDict Nat (Val O))
  | [], st, got => if want ≤ got.length then (st, .ok got) else (st, .waiting)
  | .worker i :: evs, st, got => if want ≤ got.length then (st, .ok got) else collect s want evs (workerStep s st i) got
  | .get :: evs, st, got =>
    if want ≤ got.length then (st, .ok got)
    else
      match st.results with
      | [] => collect s want evs st got
      | (i, .ok v) :: rs => collect s want evs { st with results := rs } (got.set i v)
      | (_, .error x) :: rs => ({ st with results := rs }, .fail (.env x))

/-- `[result[e_idx] for e_idx in env_idxs]` (openai_gym.py:381). -/
def lookAll {O X : Type} (got : PyDict Nat (Val O)) : List Nat → Ret X (List (Val O))
  | [] => .ok []
  | i :: is =>
    match got.get? i with
    | none => .fail .key
    | some v =>
      match lookAll (X := X) got is with
      | .ok vs => .ok (v :: vs)
      | .fail f => .fail f
      | .waiting => .waiting

/-- `_call_gym_env_method` (openai_gym.py:362-381). -/
def callMethod {E A O X : Type} (s : Sys E A O X) (st : Sub E A O X) (idxs : List Nat) (args : List (Cmd A)) (sched : List Ev) :
    Sub E A O X × Ret X (List (Val O)) :=
  match putAll idxs args st with
  | (st, false) => (st, .fail .index)
  | (st, true) =>
    match collect s idxs.length sched st [] with
    | (st, .waiting) => (st, .waiting)
    | (st, .fail f) => (st, .fail f)
    | (st, .ok got) => (st, lookAll got idxs)

/-- `ParallelWrapperSubProc.reset` (openai_gym.py:232-240). -/
def Sub.reset {E A O X : Type} (s : Sys E A O X) (st : Sub E A O X) (idx : Option (List Nat)) (sched : List Ev) :
    Sub E A O X × Ret X (List (Val O)) :=
  let idx := idx.getD (List.range st.n)
  if idx.any (fun i => st.n ≤ i) then (st, .fail .index)
  else callMethod s { st with terminal := idx.foldl (fun t i => Function.update t i false) st.terminal } idx (idx.map fun _ => .reset) sched

/-- `[r[0] ...]`, `[r[2] ...]` (openai_gym.py:263-266); an observation left over from a `reset` is taken to have no such
components. -/
def asSteps {O X : Type} : List (Val O) → Except (Fail X) (List (O × Bool))
  | [] => .ok []
  | .obs _ :: _ => .error .type
  | .stepped o t :: vs =>
    match asSteps vs with
    | .ok rs => .ok ((o, t) :: rs)
    | .error f => .error f

/-- `ParallelWrapperSubProc.step` (openai_gym.py:242-273): `_terminal` is not consulted. -/
def Sub.step {E A O X : Type} (s : Sys E A O X) (st : Sub E A O X) (action : List A) (idx : Option (List Nat)) (sched : List Ev) :
    Sub E A O X × Ret X (List (O × Bool)) :=
  let idx := idx.getD (List.range st.n)
  if action.length ≠ idx.length then (st, .fail .value)
  else
    match callMethod s st idx (action.map .step) sched with
    | (st, .waiting) => (st, .waiting)
    | (st, .fail f) => (st, .fail f)
    | (st, .ok vs) =>
      match asSteps vs with
      | .error f => (st, .fail f)
      | .ok rs => ({ st with terminal := orTerminal st.terminal idx (rs.map (·.2)) }, .ok rs)

/-- `active` (openai_gym.py:332-336). -/
def Sub.active {E A O X : Type} (st : Sub E A O X) : List Nat := (List.range st.n).filter fun i => !st.terminal i

end Machin.EnvWrap
